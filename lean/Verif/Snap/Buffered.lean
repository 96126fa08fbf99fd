import Verif.Snap.FileCopy
/-
Model of the buffered sequential file adaptors a custom file system derives from: BufferedSequentialReadFileAdaptor
(file_system_adaptor.h:189-225, file_system_adaptor.cpp:68-114) and BufferedSequentialWriteFileAdaptor
(file_system_adaptor.h:227-269, file_system_adaptor.cpp:116-159).

* Offsets and sizes are natural numbers without overflow (negative offsets are refused by the file service).
* What the derived class's do_read and do_write do is an argument of a call; what the base class asks of them is
  `Faithful` for do_read and the field `n` of `Wrote` for do_write.
* A CHECK that fails does not stop the program (the default of butil's logging).
-/
set_option linter.unusedVariables false

namespace Braft.Buffered
open Braft.Store (Bytes)
open Braft.FileCopy (zeros)

/-- A short result stands for a longer one that ends with zeros: `b` filled up to `n` bytes. -/
def fill (b : Bytes) (n : Nat) : Bytes := b ++ zeros (n - b.length)

/-- The part of a file from `off`, `n` bytes long. -/
def slice (f : Bytes) (off n : Nat) : Bytes := (f.drop off).take n

/-- The members of the read adaptor (file_system_adaptor.h:219-224). -/
structure Rd where
  buf : Bytes
  off : Nat
  size : Nat
  eof : Bool
  err : Nat
deriving DecidableEq, Repr

/-- The constructor (file_system_adaptor.h:210-212). -/
def Rd.init : Rd := ⟨[], 0, 0, false, 0⟩

/-- What do_read returned: an error with errno, or the bytes it put into the portal and *nread. -/
inductive Got where
  | fail (errno : Nat)
  | ok (b : Bytes) (n : Nat)
deriving DecidableEq, Repr

/-- What read returned: -1 with errno, or the bytes in the portal and the result. -/
inductive Out where
  | fail (errno : Nat)
  | ok (b : Bytes) (n : Nat)
deriving DecidableEq, Repr

/-- Drop what lies before the offset (file_system_adaptor.cpp:88-92). -/
def Rd.skip (s : Rd) (off : Nat) : Rd :=
  if off > s.off then { s with buf := s.buf.drop (min (off - s.off) s.buf.length), size := s.size - (off - s.off), off := off }
  else s

/-- How much do_read is asked for; 0: it is not called (file_system_adaptor.cpp:93-96). -/
def Rd.need (s : Rd) (off size : Nat) : Nat :=
  let t := s.skip off
  if t.eof then 0 else off + size - t.off - t.size

/-- Add what do_read delivered (file_system_adaptor.cpp:104-109): an IOBuf that is resized to a larger size is filled with
zeros, one that is resized to a smaller size is cut. -/
def Rd.fetch (s : Rd) (need : Nat) (b : Bytes) (n : Nat) : Rd :=
  { s with eof := decide (n < need), buf := if b = [] then s.buf else (fill s.buf s.size).take s.size ++ b, size := s.size + n }

/-- The result (file_system_adaptor.cpp:110-114). -/
def Rd.give (s : Rd) (size : Nat) : Out := .ok (s.buf.take (min s.buf.length (min s.size size))) (min s.size size)

/-- EIO and EINVAL. -/
def EIO : Nat := 5
def EINVAL : Nat := 22

/-- BufferedSequentialReadFileAdaptor::read (file_system_adaptor.cpp:68-114). -/
def Rd.read (s : Rd) (off size : Nat) (g : Got) : Rd × Out :=
  if s.err ≠ 0 then (s, .fail s.err)
  else if off < s.off ∨ off > s.off + s.size then (s, .fail EINVAL)
  else if s.need off size = 0 then (s.skip off, (s.skip off).give size)
  else
    match g with
    | .fail e =>
      let x := if e ≠ 0 then e else EIO
      ({ s.skip off with err := x }, .fail x)
    | .ok b n =>
      let t := (s.skip off).fetch (s.need off size) b n
      (t, t.give size)

/-- size() (file_system_adaptor.h:204-206); none: SSIZE_MAX. -/
def Rd.fileSize (s : Rd) : Option Nat := if s.eof then some (s.off + s.size) else none

/-- The contract of do_read (file_system_adaptor.h:214-217) for a source that stands at `p` of the file `f`: it delivers the
next `n` bytes, possibly more than it was asked for, fewer only if the file ends there; zeros at the end of what it delivers
may be missing in the portal. -/
def Faithful (f : Bytes) (p need : Nat) : Got → Nat → Prop
  | .fail _, _ => True
  | .ok b n, p' => b.length ≤ n ∧ fill b n = slice f p n ∧ p + n ≤ f.length ∧ (n < need → p + n = f.length) ∧ p' = p + n

/-- All runs of a read adaptor on a source of the file `f`: calls of read with any offset and size. The number is the
position of the source. -/
inductive RRun (f : Bytes) : Rd → Nat → Prop where
  | init : RRun f Rd.init 0
  | idle {s p} (h : RRun f s p) (off size : Nat) (g : Got) (hn : s.err ≠ 0 ∨ off < s.off ∨ off > s.off + s.size ∨ s.need off size = 0) :
      RRun f (s.read off size g).1 p
  | fetch {s p} (h : RRun f s p) (off size : Nat) (g : Got) (p' : Nat)
      (hn : ¬ (s.err ≠ 0 ∨ off < s.off ∨ off > s.off + s.size ∨ s.need off size = 0))
      (hg : Faithful f p (s.need off size) g p') : RRun f (s.read off size g).1 p'

/-- The members of the write adaptor (file_system_adaptor.h:265-268), and the device below it, which stands at the end of
what was written. -/
structure Wr where
  buf : Bytes
  off : Nat
  size : Nat
  err : Nat
  dev : Bytes
deriving DecidableEq, Repr

/-- The constructor (file_system_adaptor.h:250-252), on an empty device. -/
def Wr.init : Wr := ⟨[], 0, 0, 0, []⟩

/-- What do_write returned: the result, errno and *nwrite, how many bytes it wrote. -/
structure Wrote where
  rc : Int
  errno : Nat
  n : Nat

/-- seek (file_system_adaptor.h:259-263): "Only seek to bigger offset". The base class only sets _buffer_offset; a derived
class also moves the device, which then has a hole that reads as zeros (test_file_system_adaptor.cpp:410-421). -/
def Wr.seek (s : Wr) (off : Nat) : Wr := { s with off := off, dev := fill s.dev off }

/-- Append the data to the buffer (file_system_adaptor.cpp:143-145). -/
def Wr.push (s : Wr) (d : Bytes) : Wr := { s with buf := s.buf ++ d, size := (s.buf ++ d).length }

/-- Hand the buffer to do_write (file_system_adaptor.cpp:146-158). -/
def Wr.flush (s : Wr) (w : Wrote) : Wr × Bool :=
  if s.buf.length = 0 then (s, true)
  else if w.rc < 0 then
    ({ s with err := if w.errno ≠ 0 then w.errno else EIO, dev := s.dev ++ s.buf.take w.n }, false)
  else ({ s with off := s.off + w.n, size := s.size - w.n, buf := s.buf.drop w.n, dev := s.dev ++ s.buf.take w.n }, true)

/-- BufferedSequentialWriteFileAdaptor::write (file_system_adaptor.cpp:116-159); the result is false for -1. -/
def Wr.write (s : Wr) (d : Bytes) (off : Nat) (w : Wrote) : Wr × Bool :=
  if s.err ≠ 0 then (s, false)
  else if off < s.off + s.size then (s, false)
  else if off > s.off + s.size then ((s.seek off).push d).flush w
  else (s.push d).flush w

/-- close (file_system_adaptor.h:240-243). -/
def Wr.close (s : Wr) : Bool := s.buf.length == 0

/-- The file `f` with the piece `d` written at `off`, the way pwrite does it. -/
def place (f : Bytes) (off : Nat) (d : Bytes) : Bytes := (fill f off).take off ++ d ++ f.drop (off + d.length)

/-- All runs of a write adaptor; `acc` is what the file should be: every accepted piece at its offset, zeros in between
(a write that failed in do_write is not accepted). `drained`: holes only while nothing is buffered. -/
inductive WRun (drained : Bool) : Wr → Bytes → Prop where
  | init : WRun drained Wr.init []
  | write {s acc} (h : WRun drained s acc) (d : Bytes) (off : Nat) (w : Wrote) (hw : w.n ≤ s.buf.length + d.length)
      (hd : drained = true → off > s.off + s.size → s.buf = []) :
      WRun drained (s.write d off w).1 (if (s.write d off w).2 then place acc off d else acc)

end Braft.Buffered
