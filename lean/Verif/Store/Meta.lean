import Verif.Store.Record
import Verif.PeerText
/-
Model of ProtoBufFile (protobuf_file.cpp:38-120), FileBasedSingleMetaStorage (raft_meta.cpp:421-553,
raft_meta.h:68-105), the part of KVBasedMergedMetaStorageImpl seen by one group (raft_meta.cpp:617-866)
and MixedMetaStorage (raft_meta.cpp:270-399).

The protobuf encoding of StablePBMeta is a parameter about which it is only assumed that parsing
undoes serialising; the text form of PeerId is the real one (PeerText.lean). File system calls happen
in program order; a process killed in a write leaves a prefix of the written bytes (process crash).
`fsync` has no effect in this model: losing data that was written but not synced (power failure) is
not modelled. leveldb is a map whose Write either took effect or not.
-/
set_option linter.unusedVariables false
set_option linter.unusedSimpArgs false

namespace Braft.Meta
open Braft.Store

/-! ## ProtoBufFile -/

/-- The two names ProtoBufFile touches: `path` and `path.tmp` (protobuf_file.cpp:39-40). -/
structure Dir where
  main : Option Bytes
  tmp : Option Bytes
deriving DecidableEq, Repr

/-- The file system calls of ProtoBufFile::save. -/
inductive Act where
  | openTmp            -- open(O_WRONLY | O_CREAT | O_TRUNC), protobuf_file.cpp:43
  | write (bs : Bytes) -- at the end of the temporary file, protobuf_file.cpp:59, 65
  | sync               -- protobuf_file.cpp:72
  | rename             -- protobuf_file.cpp:79
deriving DecidableEq, Repr

/-- Effect of a call that succeeds (POSIX semantics). -/
def Act.apply (d : Dir) : Act → Dir
  | .openTmp => { d with tmp := some [] }
  | .write bs => { d with tmp := some (d.tmp.getD [] ++ bs) }
  | .sync => d
  | .rename => ⟨d.tmp, none⟩

/-- What a killed or failed call leaves besides "nothing": a write may be partial. -/
def Partial (d d' : Dir) : Act → Prop
  | .write bs => ∃ p, p <+: bs ∧ d' = Act.apply d (.write p)
  | _ => False

/-- `d'` is what a process killed during the calls `as`, started in `d`, may leave. -/
def Crash (d' : Dir) : Dir → List Act → Prop
  | d, [] => d' = d
  | d, a :: as => d' = d ∨ Partial d d' a ∨ Crash d' (a.apply d) as

/-- The calls of ProtoBufFile::save (protobuf_file.cpp:38-83) for a serialised message. -/
def saveActs (msg : Bytes) (sync : Bool) : List Act :=
  [.openTmp, .write (be 4 (msg.length % 4294967296)), .write msg] ++ (if sync then [.sync] else []) ++ [.rename]

/-- ProtoBufFile::save returning -1 (protobuf_file.cpp:44-82): a call failed, and with it every later
call was skipped; a failed write may have written a part; a failed rename did nothing. -/
def SaveFails (d' d : Dir) (msg : Bytes) (sync : Bool) : Prop :=
  Crash d' d [.openTmp, .write (be 4 (msg.length % 4294967296)), .write msg]

/-- ProtoBufFile::save returning 0. -/
def saveOk (d : Dir) (msg : Bytes) (sync : Bool) : Dir := (saveActs msg sync).foldl Act.apply d

/-- Result of ProtoBufFile::load. -/
inductive Load where
  | missing              -- open failed with ENOENT
  | short                -- a read gave fewer bytes than asked for; errno is left as it was
  | ok (body : Bytes)    -- the bytes handed to ParseFromZeroCopyStream, whose result is ignored
deriving DecidableEq, Repr

/-- ProtoBufFile::load (protobuf_file.cpp:85-120). `left_len` is an int32: from 2^31 on it is negative
and never equals the result of a read. -/
def load (d : Dir) : Load :=
  match d.main with
  | none => .missing
  | some f =>
    if (pread f 0 4).length ≠ 4 then .short
    else
      let n := unbe (pread f 0 4)
      if 2147483648 ≤ n then .short
      else if (pread f 4 n).length ≠ n then .short
      else .ok (pread f 4 n)

/-! ## FileBasedSingleMetaStorage -/

/-- A term and a vote. -/
structure Pair where
  term : Int
  voted : PeerId
deriving DecidableEq, Repr

/-- The values of a new object (raft_meta.h:73-74): term 1, no vote. -/
def Pair.fresh : Pair := ⟨1, {}⟩

/-- StablePBMeta (local_storage.proto:16-19) and its encoding, a parameter. -/
structure Pb where
  ser : Int → List Char → Bytes
  parse : Bytes → Int × List Char
  parse_ser : ∀ t v, parse (ser t v) = (t, v)

/-- FileBasedSingleMetaStorage::save's message (raft_meta.cpp:529-531). -/
def Pb.bytes (c : Pb) (p : Pair) : Bytes := c.ser p.term (Text.printPeer p.voted)

/-- FileBasedSingleMetaStorage::load (raft_meta.cpp:490-521) into a new object; `staleEnoent` says
whether errno happens to be ENOENT when a read came up short (line 506 tests errno although only a
failed open sets it to ENOENT). `none`: a nonzero result, init fails. -/
def Pb.loadMeta (c : Pb) (d : Dir) (staleEnoent : Bool) : Option Pair :=
  match load d with
  | .missing => some .fresh
  | .short => if staleEnoent then some .fresh else none
  | .ok b =>
    match Text.parsePeer (c.parse b).2 with
    | .ok v => some ⟨(c.parse b).1, v⟩
    | _ => none

/-- What FileBasedSingleMetaStorage::set_term_and_votedfor (raft_meta.cpp:450-466) on an initialised
object does: memory is changed first, then the file is saved. -/
def Pb.setOk (c : Pb) (d : Dir) (p : Pair) (sync : Bool) : Pair × Dir := (p, saveOk d (c.bytes p) sync)

/-! ## Lemmas -/

theorem crash_three {d d' : Dir} {a b : Bytes} (h : Crash d' d [.openTmp, .write a, .write b]) :
    d'.main = d.main := by
  rcases h with h | h | h | h | h | h | h
  · rw [h]
  · exact h.elim
  · rw [h]; rfl
  · obtain ⟨p, _, h⟩ := h; rw [h]; rfl
  · rw [h]; rfl
  · obtain ⟨p, _, h⟩ := h; rw [h]; rfl
  · rw [h]; rfl

theorem saveFails_main {d d' : Dir} {msg : Bytes} {sync : Bool} (h : SaveFails d' d msg sync) :
    d'.main = d.main := crash_three h

theorem saveOk_main (d : Dir) (msg : Bytes) (sync : Bool) :
    (saveOk d msg sync).main = some (be 4 (msg.length % 4294967296) ++ msg) := by
  cases sync <;> simp [saveOk, saveActs, Act.apply]

theorem crash_append (d' d : Dir) (a b : List Act) (h : Crash d' d (a ++ b)) :
    Crash d' d a ∨ Crash d' (a.foldl Act.apply d) b := by
  induction a generalizing d with
  | nil => exact Or.inr h
  | cons x xs ih =>
    rcases h with h | h | h
    · exact Or.inl (Or.inl h)
    · exact Or.inl (Or.inr (Or.inl h))
    · rcases ih _ h with h | h
      · exact Or.inl (Or.inr (Or.inr h))
      · exact Or.inr h

theorem crash_save {d d' : Dir} {msg : Bytes} {sync : Bool} (h : Crash d' d (saveActs msg sync)) :
    d'.main = d.main ∨ d'.main = some (be 4 (msg.length % 4294967296) ++ msg) := by
  unfold saveActs at h
  rcases crash_append _ _ _ _ h with h | h
  · rcases crash_append _ _ _ _ h with h | h
    · exact Or.inl (crash_three h)
    · refine Or.inl ?_
      cases sync with
      | false => simp [Crash] at h; rw [h]; rfl
      | true =>
        rcases h with h | h | h
        · rw [h]; rfl
        · exact h.elim
        · rw [h]; rfl
  · rcases h with h | h | h
    · refine Or.inl ?_
      rw [h]
      cases sync <;> rfl
    · exact h.elim
    · refine Or.inr ?_
      rw [h]
      cases sync <;> simp [Act.apply]

/-- A pair the format can hold. -/
def Pb.Fits (c : Pb) (p : Pair) : Prop := Text.Fits p.voted ∧ (c.bytes p).length < 2147483648

/-- The file holds the pair `p`; no file stands for the initial pair. -/
def Pb.Holds (c : Pb) (main : Option Bytes) (p : Pair) : Prop :=
  (main = none ∧ p = .fresh) ∨
  (main = some (be 4 ((c.bytes p).length % 4294967296) ++ c.bytes p) ∧ c.Fits p)

theorem loadMeta_holds (c : Pb) (d : Dir) (p : Pair) (st : Bool) (h : c.Holds d.main p) :
    c.loadMeta d st = some p := by
  unfold Pb.loadMeta load
  rcases h with ⟨h, rfl⟩ | ⟨h, hf, hl⟩
  · rw [h]
  · rw [h]
    dsimp only
    have hb : (be 4 ((c.bytes p).length % 4294967296)).length = 4 := be_length ..
    have h4 : pread (be 4 ((c.bytes p).length % 4294967296) ++ c.bytes p) 0 4 =
        be 4 ((c.bytes p).length % 4294967296) := by
      unfold pread; rw [List.drop_zero, List.take_left' hb]
    have hn : unbe (be 4 ((c.bytes p).length % 4294967296)) = (c.bytes p).length := by
      rw [unbe_be, show (256 : Nat) ^ 4 = 4294967296 by decide]; omega
    have hp : pread (be 4 ((c.bytes p).length % 4294967296) ++ c.bytes p) 4 (c.bytes p).length = c.bytes p := by
      unfold pread; rw [List.drop_left' hb, List.take_of_length_le (Nat.le_refl _)]
    rw [h4, hn, hp, if_neg (by rw [hb]; decide), if_neg (by omega), if_neg (by simp)]
    dsimp only
    have : c.parse (c.bytes p) = (p.term, Text.printPeer p.voted) := c.parse_ser ..
    rw [this]
    dsimp only
    rw [Text.parsePeer_printPeer p.voted hf]

/-! ## KVBasedMergedMetaStorageImpl and MixedMetaStorage

`Stores` is the value kept by the single storage (which of memory and file matters is said at each
use) and the group's record in leveldb. -/

/-- What the two stores hold on disk. -/
structure Stores where
  single : Pair
  merged : Option Pair
deriving DecidableEq, Repr

/-- How a write to leveldb ends (raft_meta.cpp:660-686): `ok`; failed without effect; failed although
the record is there. -/
inductive W where
  | ok | lost | kept
deriving DecidableEq, Repr

/-- The record after a write of `p` that ends as `w`. -/
def W.put (w : W) (old : Option Pair) (p : Pair) : Option Pair :=
  match w with
  | .ok => some p
  | .lost => old
  | .kept => some p

/-- KVBasedMergedMetaStorageImpl::get_term_and_votedfor (raft_meta.cpp:740-808): a missing record is
created with term 1 and no vote; `w` is how that write ends. The result is the new record and the
returned pair, `none` on error. Read errors of leveldb are the `readOk = false` case. -/
def mergedGet (r : Option Pair) (readOk : Bool) (w : W) : Option Pair × Option Pair :=
  if !readOk then (r, none)
  else match r with
    | some p => (r, some p)
    | none => (w.put none .fresh, if w = .ok then some .fresh else none)

/-- Result of MixedMetaStorage::get_term_and_votedfor. -/
inductive Got where
  | ok (p : Pair)
  | conflict          -- EINVAL "Unexpected conflict", raft_meta.cpp:336-346
  | failed            -- an error of one of the two stores
deriving DecidableEq, Repr

/-- How the calls inside MixedMetaStorage::get_term_and_votedfor end. -/
structure Env where
  readOk : Bool      -- leveldb Get
  firstW : W         -- the write of the initial record
  mergedW : W        -- the catch-up write to leveldb
  singleOk : Bool    -- the catch-up write of the single storage
deriving DecidableEq, Repr

/-- `single_newer_than_merged` (raft_meta.cpp:350-351). -/
def newer (a b : Pair) : Bool :=
  decide (a.term > b.term) || (decide (a.term = b.term) && !a.voted.isEmpty && b.voted.isEmpty)

/-- MixedMetaStorage::get_term_and_votedfor (raft_meta.cpp:300-399), called after init, when the
memory of the single storage is what its file holds. `peer == ANY_PEER` is `isEmpty`: ANY_PEER is the
default PeerId. -/
def mixedGet (s : Stores) (e : Env) : Stores × Got :=
  match mergedGet s.merged e.readOk e.firstW with
  | (m, none) => (⟨s.single, m⟩, .failed)
  | (m, some q) =>
    let p := s.single
    if p.term = q.term ∧ PeerId.eqv p.voted q.voted then (⟨p, m⟩, .ok p)
    else if p.term = q.term ∧ !p.voted.isEmpty ∧ !q.voted.isEmpty then (⟨p, m⟩, .conflict)
    else if newer p q then
      (⟨p, e.mergedW.put m p⟩, if e.mergedW = .ok then .ok p else .failed)
    else
      (⟨if e.singleOk then q else p, m⟩, if e.singleOk then .ok q else .failed)

/-- MixedMetaStorage::set_term_and_votedfor (raft_meta.cpp:270-293): the single storage first; leveldb
only if that succeeded. -/
def mixedSet (s : Stores) (p : Pair) (singleOk : Bool) (w : W) : Stores × Bool :=
  if !singleOk then (s, false)
  else (⟨p, w.put s.merged p⟩, decide (w = .ok))

end Braft.Meta
