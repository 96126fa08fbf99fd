import Verif.Snap.BufferedInv
/-
C58: the buffered sequential adaptors deliver and store exactly the bytes of the file.

`RRun f s p`: `s` is reached by any calls of read, with any offsets and sizes, on a source (do_read) of the file `f` that
keeps its contract: it hands out the file in order, in pieces of any size, may hand out more than it was asked for, hands out
less only at the end of the file, may leave out zeros at the end of a piece, and may fail.
`WRun true s acc`: `s` is reached by any calls of write on a device that writes any part of what it is given or fails;
`acc` is what was accepted; holes are only made while nothing is buffered.
-/
set_option linter.unusedVariables false

namespace Braft.Props
open Braft.Buffered
open Braft.Store (Bytes)

/-- C58. What read gives is the file: `n` bytes from `off`, where zeros at the end may be missing in the portal; fewer than
asked for only at the end of the file. -/
theorem buffered_read_exact {f : Bytes} {s : Rd} {p : Nat} (h : RRun f s p) (off size : Nat) (g : Got) (p' : Nat)
    (hg : s.need off size ≠ 0 → Faithful f p (s.need off size) g p') {t : Rd} {d : Bytes} {n : Nat}
    (e : s.read off size g = (t, .ok d n)) :
    d.length ≤ n ∧ d ++ List.replicate (n - d.length) 0 = (f.drop off).take n ∧ n ≤ size ∧ off + n ≤ f.length ∧
      (n < size → off + n = f.length) := by
  obtain ⟨a1, a2, a3, a4, a5, _⟩ := read_ok h off size g p' hg e
  exact ⟨a1, a2, a3, a4, a5⟩

/-- C58. When size() is known it is the size of the file. -/
theorem buffered_size_exact {f : Bytes} {s : Rd} {p : Nat} (h : RRun f s p) {n : Nat} (e : s.fileSize = some n) : n = f.length := by
  unfold Rd.fileSize at e
  split at e
  · rename_i he
    rw [← h.inv.last he]
    exact (Option.some.inj e).symm
  · simp at e

/-- C58. The answer "end of file" of the file reader (file_reader.cpp:99-109: fewer bytes than asked for, or the known size is
where the piece ends) is right: the piece ends at the end of the file. -/
theorem buffered_eof_right {f : Bytes} {s : Rd} {p : Nat} (h : RRun f s p) (off size : Nat) (g : Got) (p' : Nat)
    (hg : s.need off size ≠ 0 → Faithful f p (s.need off size) g p') {t : Rd} {d : Bytes} {n : Nat}
    (e : s.read off size g = (t, .ok d n)) (heof : n < size ∨ t.fileSize = some (off + size)) : off + n = f.length := by
  obtain ⟨a1, a2, a3, a4, a5, a6, a7, q, hi⟩ := read_ok h off size g p' hg e
  by_cases hn : n < size
  · exact a5 hn
  · rcases heof with h1 | h1
    · exact a5 h1
    · unfold Rd.fileSize at h1
      split at h1
      · rename_i he
        have h2 := hi.last he
        have h3 := Option.some.inj h1
        omega
      · simp at h1

/-- Reading a file from the start, each call where the previous one ended; `got` is what was received, with the zeros that
were left out. -/
inductive ReadThrough (f : Bytes) : Rd → Nat → Bytes → Prop where
  | start : ReadThrough f Rd.init 0 []
  | next {s p got} (h : ReadThrough f s p got) (size : Nat) (g : Got) (p' : Nat)
      (hg : s.need got.length size ≠ 0 → Faithful f p (s.need got.length size) g p')
      (hp : s.need got.length size = 0 → p' = p) {t : Rd} {d : Bytes} {n : Nat} (e : s.read got.length size g = (t, .ok d n)) :
      ReadThrough f t p' (got ++ d ++ List.replicate (n - d.length) 0)

theorem ReadThrough.inv {f : Bytes} {s : Rd} {p : Nat} {got : Bytes} (h : ReadThrough f s p got) :
    RRun f s p ∧ got = f.take got.length := by
  induction h with
  | start => exact ⟨RRun.init, rfl⟩
  | @next s p got hh size g p' hg hp t d n e ih =>
    obtain ⟨h, hgot⟩ := ih
    obtain ⟨a1, a2, a3, a4, a5⟩ := buffered_read_exact h got.length size g p' hg e
    constructor
    · have ht : t = (s.read got.length size g).1 := by rw [e]
      rw [ht]
      by_cases hn : s.err ≠ 0 ∨ got.length < s.off ∨ got.length > s.off + s.size ∨ s.need got.length size = 0
      · have hz : s.need got.length size = 0 := by
          rcases hn with hn | hn | hn | hn
          · exfalso; unfold Rd.read at e; rw [if_pos hn] at e; simp at e
          · exfalso; unfold Rd.read at e; split at e
            · simp at e
            · rw [if_pos (Or.inl hn)] at e; simp at e
          · exfalso; unfold Rd.read at e; split at e
            · simp at e
            · rw [if_pos (Or.inr hn)] at e; simp at e
          · exact hn
        rw [hp hz]
        exact h.idle _ _ _ hn
      · exact h.fetch _ _ _ _ hn (hg (fun hz => hn (Or.inr (Or.inr (Or.inr hz)))))
    · have hl : (got ++ d ++ List.replicate (n - d.length) 0).length = got.length + n := by
        simp only [List.length_append, List.length_replicate]; omega
      rw [hl, List.take_add, ← hgot, ← a2, List.append_assoc]

/-- C58. Reading through gives a prefix of the file at any time, -/
theorem buffered_read_through_prefix {f : Bytes} {s : Rd} {p : Nat} {got : Bytes} (h : ReadThrough f s p got) : got <+: f := by
  rw [h.inv.2]; exact List.take_prefix _ _

/-- C58. and the whole file when a call gives fewer bytes than it was asked for. -/
theorem buffered_read_through_all {f : Bytes} {s : Rd} {p : Nat} {got : Bytes} (h : ReadThrough f s p got) (size : Nat) (g : Got)
    (p' : Nat) (hg : s.need got.length size ≠ 0 → Faithful f p (s.need got.length size) g p') {t : Rd} {d : Bytes} {n : Nat}
    (e : s.read got.length size g = (t, .ok d n)) (hn : n < size) : got ++ d ++ List.replicate (n - d.length) 0 = f := by
  obtain ⟨a1, a2, a3, a4, a5⟩ := buffered_read_exact h.inv.1 got.length size g p' hg e
  rw [List.append_assoc, a2, h.inv.2]
  have hl := a5 hn
  rw [List.length_take, Nat.min_eq_left (by omega)]
  rw [List.take_of_length_le (l := f.drop _) (by rw [List.length_drop]; omega), List.take_append_drop]

/-- C58. A retry gives the same answer, without do_read. -/
theorem buffered_retry {f : Bytes} {s : Rd} {p : Nat} (h : RRun f s p) (off size : Nat) (g : Got) (p' : Nat)
    (hg : s.need off size ≠ 0 → Faithful f p (s.need off size) g p') {t : Rd} {d : Bytes} {n : Nat}
    (e : s.read off size g = (t, .ok d n)) (g' : Got) : (t.read off size g').2 = .ok d n ∧ (t.read off size g').1 = t := by
  obtain ⟨a1, a2, a3, a4, a5, a6, a7, q, hi⟩ := read_ok h off size g p' hg e
  have hne : ¬ s.err ≠ 0 ∧ t.err = s.err ∧ t.give size = .ok d n := by
    unfold Rd.read at e
    split at e
    · simp at e
    · rename_i n1
      split at e
      · simp at e
      · split at e
        · simp only [Prod.mk.injEq] at e
          refine ⟨n1, ?_, by rw [← e.1]; exact e.2⟩
          rw [← e.1]; unfold Rd.skip; split <;> rfl
        · cases g with
          | fail x => simp at e
          | ok b m =>
            simp only [Prod.mk.injEq] at e
            refine ⟨n1, ?_, by rw [← e.1]; exact e.2⟩
            rw [← e.1]; show (s.skip off).err = s.err; unfold Rd.skip; split <;> rfl
  obtain ⟨b1, b2, b3⟩ := hne
  have hskip : t.skip off = t := by unfold Rd.skip; rw [if_neg (by omega)]
  have hneed : t.need off size = 0 := by
    unfold Rd.need
    rw [hskip]
    dsimp only
    split
    · rfl
    · rename_i he
      by_cases hn : n < size
      · exfalso
        apply he
        -- fewer than asked for, so the end was seen
        unfold Rd.read at e
        split at e
        · simp at e
        split at e
        · simp at e
        split at e
        · rename_i n3
          simp only [Prod.mk.injEq] at e
          unfold Rd.need at n3
          dsimp only at n3
          rw [e.1] at n3
          split at n3
          · assumption
          · omega
        · rename_i n3
          cases g with
          | fail x => simp at e
          | ok b m =>
            simp only [Prod.mk.injEq] at e
            have e1 := e.1
            rw [← e1]
            rw [← e1] at a7 a6
            simp only [Rd.fetch, decide_eq_true_eq] at a7 a6 ⊢
            unfold Rd.need at n3 ⊢
            dsimp only at n3 ⊢
            split
            · rename_i hc; simp [hc] at n3
            · omega
      · omega
  unfold Rd.read
  rw [if_neg (by rw [b2]; exact b1), if_neg (by omega), if_pos hneed, hskip]
  exact ⟨b3, rfl⟩

/-- C58. After an error of do_read every read fails: the bytes that may have been lost with it are never skipped. -/
theorem buffered_error_sticks (s : Rd) (he : s.err ≠ 0) (off size : Nat) (g : Got) :
    s.read off size g = (s, .fail s.err) := by unfold Rd.read; rw [if_pos he]

theorem buffered_error_set (s : Rd) (off size e : Nat) (h0 : s.err = 0) (h1 : s.off ≤ off) (h2 : off ≤ s.off + s.size)
    (h3 : s.need off size ≠ 0) : (s.read off size (.fail e)).1.err ≠ 0 := by
  unfold Rd.read
  rw [if_neg (by simpa using h0), if_neg (by omega), if_neg h3]
  dsimp only
  split
  · assumption
  · simp [Buffered.EIO]

/-- C58. When close succeeds, the device holds all that was accepted, every piece at its offset. Proved if holes are only
made while nothing is buffered. -/
theorem buffered_write_exact_partial {s : Wr} {acc : Bytes} (h : WRun true s acc) (hc : s.close = true) : s.dev = acc := by
  have hb : s.buf = [] := by simpa [Wr.close] using hc
  have he : s.err = 0 := by
    by_cases h0 : s.err = 0
    · exact h0
    · exact absurd hb (h.inv.stuck h0)
  have := h.inv.data he
  rwa [hb, List.append_nil] at this

/-- C58. Until there is an error the device and the buffer together are what was accepted. -/
theorem buffered_write_prefix_partial {s : Wr} {acc : Bytes} (h : WRun true s acc) (he : s.err = 0) :
    s.dev ++ s.buf = acc := h.inv.data he

namespace BufferedEx

instance (f : Bytes) (p need : Nat) (g : Got) (p' : Nat) : Decidable (Faithful f p need g p') := by
  cases g <;> unfold Faithful <;> infer_instance

def file : Bytes := [1, 2, 0, 0, 3]

/-- A source that reads in blocks of 4 and leaves out zeros at the end of a block. -/
def s1 : Rd := (Rd.init.read 0 2 (.ok [1, 2] 4)).1

theorem run1 : RRun file s1 4 := RRun.init.fetch 0 2 (.ok [1, 2] 4) 4 (by decide) (by decide)

/-- Non-vacuity of the read theorems: a block was fetched, the next read needs another one. -/
example : s1.read 2 3 (.ok [3] 1) = ({ buf := [0, 0, 3], off := 2, size := 3, eof := false, err := 0 }, .ok [0, 0, 3] 3) ∧
    s1.need 2 3 = 1 ∧ Faithful file 4 1 (.ok [3] 1) 5 := by decide

/-- A piece whose zeros are missing in the portal. -/
example : s1.read 1 3 (.fail 0) = ({ buf := [2], off := 1, size := 3, eof := false, err := 0 }, .ok [2] 3) := by decide

theorem thr : ReadThrough file (s1.read 2 3 (.ok [3] 1)).1 5 [1, 2, 0, 0, 3] := by
  have h1 : ReadThrough file s1 4 [1, 2] :=
    ReadThrough.start.next 2 (.ok [1, 2] 4) 4 (by decide) (by decide) (t := s1) (d := [1, 2]) (n := 2) (by decide)
  exact h1.next 3 (.ok [3] 1) 5 (by decide) (by decide) (d := [0, 0, 3]) (n := 3) (by decide)

/-- Non-vacuity of reading through: the last call gives nothing. -/
example : ((s1.read 2 3 (.ok [3] 1)).1.read 5 2 (.ok [] 0)).2 = .ok [] 0 := by decide

/-- A device that writes 2 bytes at a time; a hole. -/
def w1 : Wr := (Wr.init.write [7, 8, 9] 0 ⟨0, 0, 2⟩).1
def w2 : Wr := (w1.write [5] 3 ⟨0, 0, 2⟩).1
def w3 : Wr := (w2.write [6, 6] 6 ⟨0, 0, 2⟩).1

theorem wrun : WRun true w3 [7, 8, 9, 5, 0, 0, 6, 6] := by
  have h1 : WRun true w1 [7, 8, 9] := WRun.init.write [7, 8, 9] 0 ⟨0, 0, 2⟩ (by decide) (by decide)
  have h2 : WRun true w2 [7, 8, 9, 5] := h1.write [5] 3 ⟨0, 0, 2⟩ (by decide) (by decide)
  exact h2.write [6, 6] 6 ⟨0, 0, 2⟩ (by decide) (by decide)

example : w3.close = true ∧ w1.buf = [9] := by decide

end BufferedEx

/-- C58, the rest is false: a piece behind a hole while a byte is buffered. The CHECK fails, does not stop the program, and
the buffered byte is written behind the hole; close succeeds and the file is wrong. The pieces `[7, 8, 9]` at 0 and `[5]` at 6
become `[7, 8, 0, 0, 0, 0, 9, 5]`. -/
theorem buffered_hole_moves_data : ∃ (s : Wr) (acc : Bytes), WRun false s acc ∧ s.close = true ∧ s.err = 0 ∧
    acc = [7, 8, 9, 0, 0, 0, 5] ∧ s.dev = [7, 8, 0, 0, 0, 0, 9, 5] := by
  have h1 : WRun false BufferedEx.w1 [7, 8, 9] := WRun.init.write [7, 8, 9] 0 ⟨0, 0, 2⟩ (by decide) (by decide)
  have h2 := h1.write [5] 6 ⟨0, 0, 2⟩ (by decide) (by decide)
  exact ⟨_, _, h2, by decide, by decide, by decide, by decide⟩

end Braft.Props
