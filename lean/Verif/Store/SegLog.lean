/-
`SegmentLogStorage`: log.cpp:682-1258, on top of Store/Segment.lean.

The directory of the storage is a value of type `Disk`; an operation computes the new in-memory state
and the list of file-system calls it makes, in program order. A crash stops after any of them, and
inside a write after any byte (`Crash`). Simplifications:
* file-system calls succeed and take effect in program order (a process crash, not a power failure;
  fsync is therefore not visible);
* `log_meta` is replaced atomically (ProtoBufFile::save, modelled in Store/PbFile.lean);
* `Segment::unlink` (log.cpp:591-623) renames to `*.tmp`, which `list_segments` deletes on sight, so
  the rename is the removal;
* the closed segment files are listed in the order of their first index, because `list_segments` puts
  them in a `std::map`;
* indexes are natural numbers, the `-1` of log.cpp:1054 is `none`.
-/
import Verif.Store.Segment
set_option linter.unusedVariables false
set_option linter.unusedSimpArgs false
set_option linter.unusedSectionVars false

namespace Braft.Store

variable {K : Type}

/-- A full segment file `log_<first>_<last>`: log.cpp:39. -/
structure CFile where
  first : Nat
  last : Nat
  data : Bytes
deriving DecidableEq, Repr

/-- The directory: log.cpp:38-40. `opens` are the files `log_inprogress_<first>`. -/
structure Disk where
  metaIdx : Option Nat
  closed : List CFile
  opens : List (Nat × Bytes)
deriving DecidableEq, Repr

/-- log.h:255-276, the fields of SegmentLogStorage: `_first_log_index`, `_last_log_index`, `_segments`
(by first index), `_open_segment`. -/
structure Mem where
  first : Nat
  last : Nat
  segs : List Seg
  opn : Option Seg
deriving DecidableEq, Repr

/-- File-system calls. -/
inductive Act where
  | saveMeta (n : Nat)                 -- log.cpp:1151-1168
  | create (f : Nat)                   -- Segment::create, log.cpp:104-117
  | write (f : Nat) (bs : Bytes)       -- log.cpp:425-439
  | close (f l : Nat)                  -- rename, log.cpp:536-571
  | reopen (f l : Nat)                 -- rename, log.cpp:642-663
  | cut (f size : Nat)                 -- ftruncate, log.cpp:666
  | cutClosed (f l size : Nat)         -- ftruncate, log.cpp:365-369
  | rmClosed (f l : Nat)               -- log.cpp:591-623
  | rmOpen (f : Nat)                   -- log.cpp:591-623
deriving DecidableEq, Repr

/-- Insertion by first index (directory entries are read into a `std::map`). -/
def insertC (x : CFile) : List CFile → List CFile
  | [] => [x]
  | y :: ys => if x.first < y.first then x :: y :: ys else y :: insertC x ys

def isC (f l : Nat) (x : CFile) : Bool := decide (x.first = f) && decide (x.last = l)

/-- Effect of a call. -/
def Act.apply (d : Disk) : Act → Disk
  | .saveMeta n => { d with metaIdx := some n }
  | .create f => { d with opens := d.opens.filter (fun x => !decide (x.1 = f)) ++ [(f, [])] }
  | .write f bs => { d with opens := d.opens.map (fun x => if x.1 = f then (x.1, x.2 ++ bs) else x) }
  | .close f l =>
    match d.opens.find? (fun x => decide (x.1 = f)) with
    | none => d
    | some x => { d with opens := d.opens.filter (fun x => !decide (x.1 = f)),
                         closed := insertC ⟨f, l, x.2⟩ (d.closed.filter (fun x => !isC f l x)) }
  | .reopen f l =>
    match d.closed.find? (isC f l) with
    | none => d
    | some x => { d with closed := d.closed.filter (fun x => !isC f l x),
                         opens := d.opens.filter (fun x => !decide (x.1 = f)) ++ [(f, x.data)] }
  | .cut f size => { d with opens := d.opens.map (fun x => if x.1 = f then (x.1, x.2.take size) else x) }
  | .cutClosed f l size =>
    { d with closed := d.closed.map (fun x => if isC f l x then { x with data := x.data.take size } else x) }
  | .rmClosed f l => { d with closed := d.closed.filter (fun x => !isC f l x) }
  | .rmOpen f => { d with opens := d.opens.filter (fun x => !decide (x.1 = f)) }

def applyAll (d : Disk) (as : List Act) : Disk := as.foldl Act.apply d

/-- What a crash inside one call leaves besides "not started": a write may be partial. -/
def Partial (d d' : Disk) : Act → Prop
  | .write f bs => ∃ p, p <+: bs ∧ d' = Act.apply d (.write f p)
  | _ => False

/-- `d'` is a state of the directory a process killed during the calls `as`, started in `d`, may
leave. -/
def Crash (d' : Disk) : Disk → List Act → Prop
  | d, [] => d' = d
  | d, a :: as => d' = d ∨ Partial d d' a ∨ Crash d' (a.apply d) as

/-! ### Operations -/

/-- log.cpp:1053-1091, the loop over the closed segments: those to keep, and the unlinks. -/
def listClosed (first : Nat) : Option Nat → List CFile → List Act × Option (List CFile)
  | _, [] => ([], some [])
  | li, f :: fs =>
    if f.first > f.last then ([], none)
    else match li with
      | some l =>
        if f.first ≠ l + 1 then ([], none)
        else
          let r := listClosed first (some f.last) fs
          (r.1, r.2.map (fun k => f :: k))
      | none =>
        if first < f.first then ([], none)
        else if first > f.last then
          let r := listClosed first none fs
          (.rmClosed f.first f.last :: r.1, r.2)
        else
          let r := listClosed first (some f.last) fs
          (r.1, r.2.map (fun k => f :: k))

/-- log.cpp:1108-1124, loading the closed segments; `last` is `_last_log_index`. -/
def Codec.loadClosed (c : Codec K) (recover : Bool) :
    Nat → List CFile → Option (List Seg × List (Nat × Nat × K) × List Act × Nat)
  | last, [] => some ([], [], [], last)
  | _, f :: fs =>
    match c.load recover ⟨f.first, f.last, false, [], 0⟩ f.data with
    | none => none
    | some (seg, confs, size) =>
      match c.loadClosed recover seg.last fs with
      | none => none
      | some (segs, confs', acts, last) =>
        some (seg :: segs, confs ++ confs',
          (if size ≠ f.data.length then [Act.cutClosed f.first f.last size] else []) ++ acts, last)

/-- log.cpp:682-733 `init` with load_meta 1170-1190, list_segments 999-1106 and load_segments
1108-1149: the calls made, and unless it fails the state and what was added to the configuration
manager. -/
def Codec.init (c : Codec K) (recover : Bool) (d : Disk) :
    List Act × Option (Mem × List (Nat × Nat × K)) :=
  match d.metaIdx with
  | none =>
    (d.closed.map (fun f => Act.rmClosed f.first f.last) ++ d.opens.map (fun x => Act.rmOpen x.1)
      ++ [.saveMeta 1], some (⟨1, 0, [], none⟩, []))
  | some first =>
    if d.opens.length > 1 then ([], none)
    else
      let r := listClosed first none d.closed
      match r.2 with
      | none => (r.1, none)
      | some keep =>
        match c.loadClosed recover 0 keep with
        | none => (r.1, none)
        | some (segs, confs, acts, last) =>
          match d.opens with
          | [] => (r.1 ++ acts,
              some (⟨first, if last = 0 then first - 1 else last, segs, none⟩, confs))
          | (f, b) :: _ =>
            match c.load recover ⟨f, f - 1, true, [], 0⟩ b with
            | none => (r.1 ++ acts, none)
            | some (seg, confs', size) =>
              let acts' := if size ≠ b.length then [Act.cut f size] else []
              if first > seg.last then
                (r.1 ++ acts ++ acts' ++ [.rmOpen f],
                  some (⟨first, if last = 0 then first - 1 else last, segs, none⟩, confs ++ confs'))
              else
                (r.1 ++ acts ++ acts',
                  some (⟨first, if seg.last = 0 then first - 1 else seg.last, segs, some seg⟩,
                    confs ++ confs'))

/-- A new segment object (log.h Segment constructor for open segments). -/
def newSeg (f : Nat) : Seg := ⟨f, f - 1, true, [], 0⟩

def insertS (x : Seg) : List Seg → List Seg
  | [] => [x]
  | y :: ys => if x.first < y.first then x :: y :: ys else y :: insertS x ys

/-- log.cpp:1192-1228 `open_segment` (`maxSeg` is FLAGS_raft_max_segment_size): the open segment, the
closed ones and the calls. -/
def openSegment (maxSeg : Nat) (m : Mem) : Seg × List Seg × List Act :=
  let o := (m.opn.getD (newSeg (m.last + 1)))
  let a := if m.opn.isNone then [Act.create (m.last + 1)] else []
  if o.bytes > maxSeg then
    (newSeg (m.last + 1), insertS { o with isOpen := false } m.segs,
      a ++ [.close o.first o.last, .create (m.last + 1)])
  else (o, m.segs, a)

/-- log.cpp:738-788 `append_entries`, the loop (the caller has checked that the first entry has index
`last + 1`; the entries of one call are consecutive). Returns the number of appended entries. -/
def Codec.appendLoop (c : Codec K) (maxSeg : Nat) : Mem → List (Entry K) → Mem × List Act × Nat
  | m, [] => (m, [], 0)
  | m, e :: es =>
    let (o, segs, a) := openSegment maxSeg m
    match c.append o (m.last + 1) e with
    | none => ({ m with segs := segs, opn := some o }, a, 0)
    | some (o', bs) =>
      let (m', a', n) := c.appendLoop maxSeg { m with segs := segs, opn := some o', last := m.last + 1 } es
      (m', a ++ .write o'.first bs :: a', n + 1)

/-- log.cpp:738-788; `none` is the return value -1 (a gap). -/
def Codec.appendEntries (c : Codec K) (maxSeg : Nat) (m : Mem) (idx : Nat) (es : List (Entry K)) :
    Mem × List Act × Option Nat :=
  match es with
  | [] => (m, [], some 0)
  | _ :: _ =>
    if m.last + 1 ≠ idx then (m, [], none)
    else
      let (m', a, n) := c.appendLoop maxSeg m es
      (m', a, some n)

/-- log.cpp:591-623 `Segment::unlink`. -/
def Seg.unlink (s : Seg) : Act := if s.isOpen then .rmOpen s.first else .rmClosed s.first s.last

/-- log.cpp:823-852 `pop_segments`: the new state and the popped segments. -/
def popSegments (kept : Nat) (m : Mem) : Mem × List Seg :=
  let popped := m.segs.takeWhile (fun s => decide (s.last < kept))
  let rest := m.segs.dropWhile (fun s => decide (s.last < kept))
  match rest with
  | _ :: _ => ({ m with first := kept, segs := rest }, popped)
  | [] =>
    match m.opn with
    | some o =>
      if o.last < kept then ({ first := kept, last := kept - 1, segs := [], opn := none }, popped ++ [o])
      else ({ m with first := kept, segs := [] }, popped)
    | none => ({ first := kept, last := kept - 1, segs := [], opn := none }, popped)

/-- log.cpp:854-878 `truncate_prefix`. -/
def truncatePrefix (m : Mem) (kept : Nat) : Mem × List Act :=
  if m.first ≥ kept then (m, [])
  else
    let r := popSegments kept m
    (r.1, .saveMeta kept :: r.2.map Seg.unlink)

/-- log.cpp:880-917 `pop_segments_from_back`: state, popped segments (back to front), last segment. -/
def popBack (kept : Nat) (m : Mem) : Mem × List Seg × Option Seg :=
  let viaClosed (pre : List Seg) : Mem × List Seg × Option Seg :=
    let popped := m.segs.reverse.takeWhile (fun s => decide (s.first > kept))
    let rest := (m.segs.reverse.dropWhile (fun s => decide (s.first > kept))).reverse
    match rest.getLast? with
    | some s => ({ m with last := kept, segs := rest, opn := none }, pre ++ popped, some s)
    | none => ({ first := kept + 1, last := kept, segs := [], opn := none }, pre ++ popped, none)
  match m.opn with
  | some o =>
    if o.first ≤ kept then ({ m with last := kept }, [], some o) else viaClosed [o]
  | none => viaClosed []

/-- log.cpp:919-964 `truncate_suffix`: state, calls, and the return value (`true` is 0, `false` the -1
it starts with, returned when there was nothing to do). -/
def truncateSuffix (m : Mem) (kept : Nat) : Mem × List Act × Bool :=
  match popBack kept m with
  | (m1, popped, none) => (m1, popped.map Seg.unlink, !popped.isEmpty)
  | (m1, popped, some s) =>
    if m1.first ≤ m1.last then
      match s.truncate kept with
      | none => (m1, popped.map Seg.unlink, true)
      | some (s', size) =>
        if s.isOpen then
          ({ m1 with opn := some s' }, popped.map Seg.unlink ++ [.cut s.first size], true)
        else
          ({ m1 with segs := m1.segs.filter (fun x => !decide (x.first = s.first)), opn := some s' },
            popped.map Seg.unlink ++ [.reopen s.first s.last, .cut s.first size], true)
    else
      ({ m1 with segs := m1.segs.filter (fun x => !decide (x.first = s.first)), opn := none },
        (popped ++ [s]).map Seg.unlink, true)

/-- log.cpp:966-997 `reset` (for `next > 0`). -/
def resetLog (m : Mem) (next : Nat) : Mem × List Act :=
  (⟨next, next - 1, [], none⟩,
    .saveMeta next :: (m.segs ++ m.opn.toList).map Seg.unlink)

/-- log.cpp:1230-1258 `get_segment`. -/
def getSegment (m : Mem) (i : Nat) : Option Seg :=
  if m.first = m.last + 1 then none
  else if i < m.first ∨ i > m.last + 1 then none
  else if i = m.last + 1 then none
  else
    let viaClosed := (m.segs.takeWhile (fun s => decide (s.first ≤ i))).getLast?
    match m.opn with
    | some o => if i ≥ o.first then some o else viaClosed
    | none => viaClosed

/-- The file behind the descriptor of a segment. -/
def Disk.file (d : Disk) (s : Seg) : Bytes :=
  if s.isOpen then ((d.opens.find? (fun x => decide (x.1 = s.first))).map Prod.snd).getD []
  else ((d.closed.find? (isC s.first s.last)).map CFile.data).getD []

/-- log.cpp:807-813 `get_entry`. -/
def Codec.getEntry (c : Codec K) (m : Mem) (d : Disk) (i : Nat) : Option (Entry K) :=
  match getSegment m i with
  | none => none
  | some s => c.get s (d.file s) i

/-- log.cpp:815-821 `get_term`. -/
def getTermAt (m : Mem) (i : Nat) : Nat :=
  match getSegment m i with
  | none => 0
  | some s => s.getTerm i

end Braft.Store
