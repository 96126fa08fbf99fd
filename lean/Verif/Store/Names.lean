import Verif.PeerText
/-
Names on disk: segments (log.cpp:36-39, 110-116, 264-269, 539-544, 571-577, 593-600, 641-648) and their listing
(SegmentLogStorage::list_segments, log.cpp:999-1051), snapshots (snapshot.cpp:31-33, 497, 537, 641, 680) and their listing
(LocalSnapshotStorage::init, snapshot.cpp:470-512; LocalSnapshotReader::snapshot_index, 318-324).

* Indexes are int64. `%020` of printf pads with zeros to 20 characters, the sign included; of sscanf it reads at most 20
  characters, the sign included, and a number outside of int64 is the nearest one (glibc).
* sscanf does not look at what comes after the last conversion.
* The name of a directory entry that is shorter than ".tmp" is compared from a place before its start (log.cpp:1008); here it does
  not end in ".tmp".
* What is done with the segments after the listing (log.cpp:1053-1106) is in Store/SegLog.lean, removal of snapshot directories in
  Snap/Storage.lean.
-/
set_option linter.unusedVariables false

namespace Braft.Names
open Braft.Text

abbrev Txt := List Char

/-- At least `w` digits. -/
def zeros (w n : Nat) : Txt := List.replicate (w - (printNat n).length) '0' ++ printNat n

/-- printf `%020ld`. -/
def pad (i : Int) : Txt := if i < 0 then '-' :: zeros 19 i.natAbs else zeros 20 i.natAbs

/-- Literal characters of a sscanf format. -/
def lit (p s : Txt) : Option Txt := if p.isPrefixOf s then some (s.drop p.length) else none

/-- At most `w` digits, at least one. -/
def digs (w : Nat) (s : Txt) : Option (Nat × Txt) :=
  let d := (s.take w).takeWhile isDigit
  if d.isEmpty then none else some (valOf d, s.drop d.length)

/-- The nearest int64. -/
def clamp (i : Int) : Int := if i < -(2 ^ 63) then -(2 ^ 63) else if 2 ^ 63 ≤ i then 2 ^ 63 - 1 else i

/-- sscanf `%020ld`. -/
def scan (s : Txt) : Option (Int × Txt) :=
  match s.dropWhile isSpace with
  | '-' :: r => (digs 19 r).map (fun x => (clamp (-(x.1 : Int)), x.2))
  | '+' :: r => (digs 19 r).map (fun x => (clamp x.1, x.2))
  | r => (digs 20 r).map (fun x => (clamp x.1, x.2))

/-- BRAFT_SEGMENT_CLOSED_PATTERN (log.cpp:39). -/
def closedName (f l : Int) : Txt := "log_".toList ++ (pad f ++ ("_".toList ++ pad l))
/-- BRAFT_SEGMENT_OPEN_PATTERN (log.cpp:38). -/
def openName (f : Int) : Txt := "log_inprogress_".toList ++ pad f
/-- BRAFT_SNAPSHOT_PATTERN (snapshot.cpp:32). -/
def snapName (i : Int) : Txt := "snapshot_".toList ++ pad i

/-- sscanf with BRAFT_SEGMENT_CLOSED_PATTERN gives 2 (log.cpp:1026-1028). -/
def readClosed (s : Txt) : Option (Int × Int) :=
  match lit "log_".toList s with
  | none => none
  | some r => match scan r with
    | none => none
    | some (f, r) => match lit "_".toList r with
      | none => none
      | some r => (scan r).map (fun x => (f, x.1))

/-- sscanf with BRAFT_SEGMENT_OPEN_PATTERN gives 1 (log.cpp:1037-1039). -/
def readOpen (s : Txt) : Option Int :=
  match lit "log_inprogress_".toList s with
  | none => none
  | some r => (scan r).map Prod.fst

/-- sscanf with BRAFT_SNAPSHOT_PATTERN gives 1 (snapshot.cpp:321, 480-481). -/
def readSnap (s : Txt) : Option Int :=
  match lit "snapshot_".toList s with
  | none => none
  | some r => (scan r).map Prod.fst

/-- What list_segments finds. -/
structure Found where
  /-- _segments: the map from first to last index, in the order of the first indexes. -/
  segs : List (Int × Int)
  /-- _open_segment. -/
  opened : Option Int
  /-- What is unlinked. -/
  trash : List Txt
deriving DecidableEq, Repr

/-- `_segments[f] = l`. -/
def putSeg (f l : Int) : List (Int × Int) → List (Int × Int)
  | [] => [(f, l)]
  | (f', l') :: r => if f < f' then (f, l) :: (f', l') :: r else if f = f' then (f, l) :: r else (f', l') :: putSeg f l r

/-- Is this unlinked (log.cpp:1010-1012)? -/
def isTrash (empty : Bool) (s : Txt) : Bool := (empty && "log_".toList.isPrefixOf s) || ".tmp".toList.isSuffixOf s

/-- One entry of the directory (log.cpp:1008-1050); `none`: the listing fails. `empty`: is_empty, there is no log_meta. -/
def entry (empty : Bool) (F : Found) (s : Txt) : Option Found :=
  if isTrash empty s then some { F with trash := F.trash ++ [s] }
  else match readClosed s with
    | some (f, l) => some { F with segs := putSeg f l F.segs }
    | none => match readOpen s with
      | some f => if F.opened.isNone then some { F with opened := some f } else none
      | none => some F

/-- The loop over the directory. -/
def list (empty : Bool) (F : Found) : List Txt → Option Found
  | [] => some F
  | s :: r => match entry empty F s with
    | none => none
    | some F' => list empty F' r

def Found.start : Found := ⟨[], none, []⟩

/-- A set of indexes in increasing order (std::set). -/
def putIdx (i : Int) : List Int → List Int
  | [] => [i]
  | j :: r => if i < j then i :: j :: r else if i = j then j :: r else j :: putIdx i r

/-- The indexes found in the directory (snapshot.cpp:477-484). -/
def snaps (l : List Txt) : List Int := l.foldl (fun a s => match readSnap s with | some i => putIdx i a | none => a) []

/-- The indexes of the snapshots that init deletes, and the last one that it keeps (snapshot.cpp:489-512). -/
def snapInit (l : List Txt) : List Int × Option Int := ((snaps l).dropLast, (snaps l).getLast?)

end Braft.Names
