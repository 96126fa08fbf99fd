import Verif.PeerText
/-
Model of the two ways in which log entries leave the memory of a node:

* over the network: Replicator::_prepare_entry (replicator.cpp:592-637), the loop that fills an AppendEntriesRequest
  (replicator.cpp:660-680) and the loop of handle_append_entries_request that reads it (node.cpp:2524-2560);
* into a file, for configurations: serialize_configuration_meta and parse_configuration_meta (log_entry.cpp:34-72) with the
  wire format of ConfigurationPBMeta (local_storage.proto:8-11).

Bytes are numbers below 256, texts lists of characters. Of protobuf, the length delimited fields 1 and 2 are modelled; any
other field makes the model's decoder fail (the real one skips it). A CHECK that fails does not stop the program.
-/
set_option linter.unusedVariables false

namespace Braft.Wire
open Braft.Text

/-- Bytes as numbers; the characters of a peer's text are ASCII, a byte each. -/
abbrev Bytes := List Nat

/-- EntryType (enum.proto:7-12). -/
inductive EType where
  | unknown
  | noop
  | data
  | conf
deriving DecidableEq, Repr

/-- LogEntry (log_entry.h:46-62). -/
structure Entry where
  index : Nat
  term : Nat
  type : EType
  peers : Option (List PeerId)
  old : Option (List PeerId)
  data : Bytes
deriving DecidableEq

/-- EntryMeta (raft.proto:9-18). -/
structure Meta where
  term : Nat
  type : EType
  peers : List (List Char)
  dataLen : Option Nat
  old : List (List Char)
deriving DecidableEq

/-- The texts of peers, none for a null pointer. -/
def texts : Option (List PeerId) → List (List Char)
  | none => []
  | some l => l.map printPeer

/-- _prepare_entry (replicator.cpp:617-637) for an entry that is sent; `withData`: the peer is no witness, or
raft_enable_witness_to_leader is set. -/
def prepare (withData : Bool) (e : Entry) : Meta × Bytes :=
  (⟨e.term, e.type, texts e.peers, if withData then some e.data.length else none,
    if e.peers.isSome then texts e.old else []⟩,
   if withData then e.data else [])

/-- The request: metas and attachment (replicator.cpp:660-680). -/
def pack (withData : Bool) (l : List Entry) : List Meta × Bytes :=
  (l.map (fun e => (prepare withData e).1), l.flatMap (fun e => (prepare withData e).2))

/-- The implicit conversion of a text to a PeerId (configuration.h:57-58): what cannot be parsed is the empty peer. -/
def toPeer (s : List Char) : PeerId :=
  match parsePeer s with
  | .ok p => p
  | _ => {}

/-- `int len = entry.data_len(); data_buf.cutn(.., len)` (node.cpp:2551-2554): the length is cut to 32 bits; a negative one
becomes a huge size_t, which cuts all there is. -/
def cutLen (n : Nat) (have_ : Nat) : Nat :=
  if n % 2 ^ 32 < 2 ^ 31 then min (n % 2 ^ 32) have_ else have_

/-- One round of the loop (node.cpp:2530-2559): the entry, and what is left of the attachment. -/
def readOne (index : Nat) (m : Meta) (b : Bytes) : Entry × Bytes :=
  let k := match m.dataLen with
    | none => 0
    | some n => cutLen n b.length
  (⟨index, m.term, m.type, if m.peers = [] then none else some (m.peers.map toPeer),
    if m.peers = [] ∨ m.old = [] then none else some (m.old.map toPeer), b.take k⟩, b.drop k)

/-- The loop (node.cpp:2528-2560): entries of type UNKNOWN are left out. -/
def unpack : Nat → List Meta → Bytes → List Entry
  | _, [], _ => []
  | prev, m :: r, b =>
    if m.type = .unknown then unpack (prev + 1) r b
    else (readOne (prev + 1) m b).1 :: unpack (prev + 1) r (readOne (prev + 1) m b).2

/-- A protobuf varint. -/
def varint (n : Nat) : Bytes :=
  if h : n < 128 then [n] else (n % 128 + 128) :: varint (n / 128)
termination_by n
decreasing_by omega

/-- Read a varint; the rest. -/
def readVarint : Bytes → Option (Nat × Bytes)
  | [] => none
  | b :: r =>
    if b < 128 then some (b, r)
    else match readVarint r with
      | none => none
      | some (n, r') => some (b - 128 + 128 * n, r')

/-- A length delimited field: tag, length, bytes. -/
def field (tag : Nat) (s : List Char) : Bytes := tag :: (varint s.length ++ s.map Char.toNat)

/-- ConfigurationPBMeta: peers = 1, old_peers = 2 (local_storage.proto:8-11). -/
structure PbMeta where
  peers : List (List Char)
  old : List (List Char)
deriving DecidableEq

/-- SerializeToZeroCopyStream: the fields in the order of their numbers; tags are `number * 8 + 2`. -/
def PbMeta.encode (m : PbMeta) : Bytes := m.peers.flatMap (field 10) ++ m.old.flatMap (field 18)

theorem readVarint_length : ∀ (b : Bytes) (n : Nat) (r : Bytes), readVarint b = some (n, r) → r.length < b.length := by
  intro b
  induction b with
  | nil => intro n r h; simp [readVarint] at h
  | cons x b ih =>
    intro n r h
    simp only [readVarint] at h
    split at h
    · simp only [Option.some.injEq, Prod.mk.injEq] at h; rw [← h.2]; simp
    · split at h
      · simp at h
      · rename_i n' r' hr
        simp only [Option.some.injEq, Prod.mk.injEq] at h
        have := ih n' r' hr
        rw [← h.2, List.length_cons]; omega

/-- ParseFromZeroCopyStream. -/
def PbMeta.decode (b : Bytes) (m : PbMeta) : Option PbMeta :=
  match b with
  | [] => some m
  | tag :: r =>
    match h : readVarint r with
    | none => none
    | some (n, s) =>
      if s.length < n then none
      else if tag = 10 then PbMeta.decode (s.drop n) ⟨m.peers ++ [(s.take n).map Char.ofNat], m.old⟩
      else if tag = 18 then PbMeta.decode (s.drop n) ⟨m.peers, m.old ++ [(s.take n).map Char.ofNat]⟩
      else none
termination_by b.length
decreasing_by all_goals
  have := readVarint_length _ _ _ h
  simp only [List.length_drop, List.length_cons]; omega

/-- serialize_configuration_meta (log_entry.cpp:55-72); the entry has peers. -/
def serializeConf (e : Entry) : Bytes := PbMeta.encode ⟨texts e.peers, texts e.old⟩

/-- parse_configuration_meta (log_entry.cpp:34-53): peers and old_peers of the entry. -/
def parseConfMeta (b : Bytes) : Option (List PeerId × Option (List PeerId)) :=
  match PbMeta.decode b ⟨[], []⟩ with
  | none => none
  | some m => some (m.peers.map toPeer, if m.old = [] then none else some (m.old.map toPeer))

end Braft.Wire
