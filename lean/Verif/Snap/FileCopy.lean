import Verif.Store.Record
/-
Model of the copying of one file from a remote snapshot: FileSegData (util.cpp:331-405, util.h:254-285),
LocalDirReader::read_file_with_meta (file_reader.cpp:50-121), SnapshotFileReader::read_file (snapshot.cpp:355-401),
FileServiceImpl::get_file (file_service.cpp:32-101) and RemoteFileCopier::Session (remote_file_copier.cpp:131-386).

* The source file does not change while it is read (snapshots are immutable, C33). pread and pwrite are file_pread and
  file_pwrite (util.cpp:286-329), which read and write all they can.
* The network: a request that was sent may be served at any time, also after its call has ended, any number of times; an
  answer reaches the session only while its call is the current one; a call may fail with any error at any time (error
  codes of the server, timeouts, lost messages).
* What a throttle grants is an argument of a step. Returning unused tokens does not matter here (C38).
* A CHECK that fails does not stop the program.
-/
set_option linter.unusedSectionVars false
set_option linter.unusedSimpArgs false
set_option linter.unusedVariables false

namespace Braft.FileCopy
open Braft.Store (Bytes be unbe pread)

/-- `n` zero bytes. -/
def zeros (n : Nat) : Bytes := List.replicate n 0

/-- pwrite: past the end of the file the gap reads as zeros. -/
def pwrite (file : Bytes) (off : Nat) (d : Bytes) : Bytes :=
  (file ++ zeros (off - file.length)).take off ++ d ++ file.drop (off + d.length)

/-- Resize the IOBuf to seg_offset and append (remote_file_copier.cpp:324-328). -/
def bufWrite (b : Bytes) (off : Nat) (d : Bytes) : Bytes := (b ++ zeros (off - b.length)).take off ++ d

/-- FileSegData as a writer (util.cpp:331-386): segments that are closed and the open one. The header of a segment is
reserved when it is opened and filled in when it is closed; here it is written when it is closed. -/
structure Segs where
  closed : List (Nat × Bytes)
  cur : Option (Nat × Bytes)

def Segs.empty : Segs := ⟨[], none⟩

/-- FileSegData::close (util.cpp:376-385). -/
def Segs.close (w : Segs) : List (Nat × Bytes) := w.closed ++ w.cur.toList

/-- FileSegData::append (util.cpp:331-352): data that continues the open segment is added to it, except if that segment
starts at 0. -/
def Segs.append (w : Segs) (d : Bytes) (off : Nat) : Segs :=
  match w.cur with
  | some (o, b) => if o ≠ 0 ∧ off = o + b.length then { w with cur := some (o, b ++ d) } else ⟨w.close, some (off, d)⟩
  | none => ⟨w.close, some (off, d)⟩

/-- The bytes of a segment: header of 8 and 4 bytes, data (util.cpp:377-381). -/
def segBytes (x : Nat × Bytes) : Bytes := be 8 x.1 ++ be 4 x.2.length ++ x.2

/-- The attachment. -/
def encode (l : List (Nat × Bytes)) : Bytes := l.flatMap segBytes

/-- FileSegData::next until it returns 0 (util.cpp:387-404, remote_file_copier.cpp:307-327). -/
def decode (b : Bytes) : List (Nat × Bytes) :=
  if h : b = [] then []
  else
    let len := unbe ((b.drop 8).take 4)
    if len = 0 then [] else (unbe (b.take 8), (b.drop 12).take len) :: decode ((b.drop 12).drop len)
termination_by b.length
decreasing_by
  have : 0 < b.length := List.length_pos_iff.mpr h
  simp only [List.length_drop]
  omega

/-- A GetFileRequest; `call` its RPC. -/
structure Req where
  call : Nat
  off : Nat
  count : Nat
  partly : Bool
deriving DecidableEq, Repr

/-- A GetFileResponse with its attachment, or a failure. -/
inductive Resp where
  | err (again : Bool)
  | ok (att : Bytes) (readSize : Nat) (eof : Bool)
deriving DecidableEq, Repr

/-- The state of a LocalDirReader: name of the file that is open, _eof_reached, _is_reading. -/
structure Reader (N : Type) where
  cur : Option N
  eof : Bool
  reading : Bool

/-- What the system calls of a read return: open, read and size succeed. -/
structure Sys where
  openOk : Bool
  readOk : Bool
  sizeOk : Bool

/-- LocalDirReader::read_file_with_meta (file_reader.cpp:50-121). The part outside the lock is one with the rest, since
requests that come meanwhile are refused. If size() fails _is_reading stays set. -/
def Reader.read {N : Type} [DecidableEq N] (r : Reader N) (name : N) (file : Bytes) (off max : Nat) (y : Sys) :
    Reader N × Option (Bytes × Nat × Bool) :=
  if r.reading then (r, none)
  else if r.cur ≠ some name ∧ (!r.eof ∨ off ≠ 0) then (r, none)
  else if r.cur ≠ some name ∧ !y.openOk then ({ r with cur := none }, none)
  else
    let r1 : Reader N := if r.cur ≠ some name then ⟨some name, false, false⟩ else r
    if !y.readOk then (r1, none)
    else
      let d := pread file off max
      if d.length < max then ({ r1 with eof := true }, some (d, d.length, true))
      else if !y.sizeOk then ({ r1 with reading := true }, none)
      else
        let e := decide (file.length = off + max)
        ({ r1 with eof := e }, some (d, d.length, e))

/-- The data of a response as attachment (file_service.cpp:76-98). `holes`: raft_file_check_hole; `pieces`: the blocks of
the IOBuf that holds the data. -/
def attach (holes : Bool) (off : Nat) (d : Bytes) (pieces : List Bytes) : Bytes :=
  if d = [] then []
  else if !holes then encode (Segs.empty.append d off).close
  else encode (pieces.foldl (fun (x : Segs × Nat) p =>
    (if p.all (fun b => b == 0) then x.1 else x.1.append p x.2, x.2 + p.length)) (Segs.empty, off)).1.close

/-- What a throttle that grants `g` leaves of `n` bytes; `none`: there is no throttle, or it is switched off
(SnapshotThrottle::throttled_by_throughput, used in snapshot.cpp:380 and remote_file_copier.cpp:221). -/
def capped : Option Nat → Nat → Nat
  | some g, n => min g n
  | none, n => n

/-- get_file with SnapshotFileReader::read_file (file_service.cpp:32-101, snapshot.cpp:355-401) for a file in the table of
the snapshot. `grant`: what the throttle allows, if there is one. -/
def serve {N : Type} [DecidableEq N] (r : Reader N) (name : N) (file : Bytes) (holes : Bool) (q : Req) (grant : Option Nat) (y : Sys)
    (pieces : List Bytes) : Resp :=
  if q.count = 0 then .err false
  else
    let max := capped grant q.count
    if max < q.count ∧ (!q.partly ∨ max = 0) then .err true
    else
      match (r.read name file q.off max y).2 with
      | none => .err r.reading
      | some (d, n, e) => .ok (attach holes q.off d pieces) n e

/-- Where a session is. -/
inductive Pc where
  /-- About to call send_next_rpc. -/
  | sending
  /-- An RPC is out. -/
  | waiting
  /-- A timer will call send_next_rpc. -/
  | timer
  | finished
deriving DecidableEq, Repr

/-- RemoteFileCopier::Session: `off` and `count` of _request, the destination, `ok` of its status; and the network. -/
structure State where
  pc : Pc
  off : Nat
  count : Nat
  dest : Bytes
  ok : Bool
  retry : Nat
  call : Nat
  reqs : List Req
  resps : List (Nat × Resp)

/-- What is fixed: the file, whether it is copied to a buffer (the meta file), raft_file_check_hole of the server, and
whether raft_allow_read_partly_when_install_snapshot of the copying process may change while it copies. -/
structure Cfg where
  file : Bytes
  toBuf : Bool
  holes : Bool
  flagChanges : Bool

/-- start_to_copy_to_file: O_TRUNC; start_to_copy_to_iobuf: clear (remote_file_copier.cpp:131-179). -/
def State.start : State := { pc := .sending, off := 0, count := 0, dest := [], ok := true, retry := 0, call := 0, reqs := [], resps := [] }

/-- send_next_rpc (remote_file_copier.cpp:202-245). `chunk`: raft_max_byte_count_per_rpc, or UINT_MAX for a buffer;
`partly`: the flag; `grant`: what the throttle allows. -/
def State.send (s : State) (chunk : Nat) (partly : Bool) (grant : Option Nat) : State :=
  if s.pc = .sending ∨ s.pc = .timer then
    let off := s.off + s.count
    let n := capped grant chunk
    if n = 0 then { s with off, count := 0, pc := .timer }
    else { s with off, count := n, call := s.call + 1, reqs := ⟨s.call + 1, off, n, partly⟩ :: s.reqs, pc := .waiting }
  else s

/-- A segment is written; the file may refuse (remote_file_copier.cpp:306-328). -/
def writeSegs (toBuf : Bool) : Bytes → List (Nat × Bytes) → Bytes
  | f, [] => f
  | f, (o, d) :: l => writeSegs toBuf (if toBuf then bufWrite f o d else pwrite f o d) l

/-- on_finished (remote_file_copier.cpp:353-365). -/
def State.finish (s : State) (ok closeOk : Bool) : State := { s with pc := .finished, ok := ok && closeOk }

/-- on_rpc_returned after a failure (remote_file_copier.cpp:247-292): `again` EAGAIN, `cancelled` ECANCELED. -/
def State.failed (s : State) (again cancelled : Bool) (maxRetry : Nat) : State :=
  if s.pc = .waiting then
    if cancelled then ({ s with count := 0 } : State).finish false true
    else if !again ∧ maxRetry ≤ s.retry then ({ s with count := 0, retry := s.retry + 1 } : State).finish false true
    else { s with count := 0, retry := if again then s.retry else s.retry + 1, pc := .timer }
  else s

/-- on_rpc_returned with a response (remote_file_copier.cpp:293-335). `partly`: the flag now; `writeOk`: all of the data
could be written (else some prefix `got` of the destination's new content, whatever it is); `closeOk`: sync and close of
the file succeed. -/
def State.returned (s : State) (toBuf : Bool) (att : Bytes) (n : Nat) (eof partly writeOk closeOk : Bool) (got : Bytes) : State :=
  if s.pc = .waiting then
    let s1 : State := { s with retry := 0, count := if n ≠ 0 ∧ partly then n else s.count }
    if !writeOk then ({ s1 with dest := got } : State).finish false true
    else
      let s2 : State := { s1 with dest := writeSegs toBuf s.dest (decode att) }
      if eof then s2.finish true closeOk else { s2 with pc := .sending }
  else s

/-- cancel (remote_file_copier.cpp:367-381). -/
def State.cancel (s : State) : State := if s.pc = .finished then s else s.finish false true

variable {N : Type} [DecidableEq N]

/-- One step, with the flag (`P`) as it is now. Chunks are below 2^32 (int32, or UINT_MAX). -/
inductive Step (c : Cfg) (name : N) (P : Bool) : State → State → Prop where
  | send (s chunk grant) (h0 : 0 < chunk) (h : chunk < 2 ^ 32) : Step c name P s (s.send chunk P grant)
  | serve (s q r grant y pieces) (hq : q ∈ s.reqs) (hp : pieces.flatten = pread c.file q.off (capped grant q.count)) :
      Step c name P s { s with resps := (q.call, serve r name c.file c.holes q grant y pieces) :: s.resps }
  | failed (s again cancelled m) : Step c name P s (s.failed again cancelled m)
  | returned (s att n e w cl got) (hr : (s.call, Resp.ok att n e) ∈ s.resps) : Step c name P s (s.returned c.toBuf att n e P w cl got)
  | cancel (s) : Step c name P s s.cancel

/-- All runs; `P` is the flag at the end of the run. -/
inductive Run (c : Cfg) (name : N) : Bool → State → Prop where
  | start (P) : Run c name P State.start
  | step {P s t} (h : Run c name P s) (hs : Step c name P s t) : Run c name P t
  | flag {P s} (h : Run c name P s) (P') (hf : c.flagChanges = true) : Run c name P' s

end Braft.FileCopy
