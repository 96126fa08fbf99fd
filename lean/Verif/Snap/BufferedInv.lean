import Verif.Snap.Buffered
/- Invariants of the buffered file adaptors. -/
set_option linter.unusedVariables false
set_option linter.unusedSimpArgs false

namespace Braft.Buffered
open Braft.Store (Bytes)
open Braft.FileCopy (zeros)

theorem fill_length (b : Bytes) (n : Nat) (h : b.length ≤ n) : (fill b n).length = n := by
  simp only [fill, zeros, List.length_append, List.length_replicate]; omega

theorem fill_self (b : Bytes) : fill b b.length = b := by simp [fill, zeros]

theorem fill_nil_of_le (b : Bytes) (n : Nat) (h : n ≤ b.length) : fill b n = b := by
  have : n - b.length = 0 := by omega
  simp [fill, zeros, this]

theorem slice_length (f : Bytes) (p n : Nat) (h : p + n ≤ f.length) : (slice f p n).length = n := by
  simp only [slice, List.length_take, List.length_drop]; omega

theorem slice_drop (f : Bytes) (p n k : Nat) : (slice f p n).drop k = slice f (p + k) (n - k) := by
  simp only [slice, List.drop_take, List.drop_drop]

theorem slice_take (f : Bytes) (p n k : Nat) : (slice f p n).take k = slice f p (min k n) := by
  simp only [slice, List.take_take]

theorem slice_append (f : Bytes) (p n k : Nat) : slice f p n ++ slice f (p + n) k = slice f p (n + k) := by
  simp only [slice, ← List.drop_drop, List.take_add]

theorem fill_drop (b : Bytes) (n k : Nat) (h : b.length ≤ n) : (fill b n).drop k = fill (b.drop k) (n - k) := by
  simp only [fill, zeros, List.drop_append, List.drop_replicate, List.length_drop]
  congr 2; omega

theorem fill_take (b : Bytes) (n k : Nat) (h : k ≤ n) : (fill b n).take k = fill (b.take k) k := by
  simp only [fill, zeros, List.take_append, List.take_replicate, List.length_take]
  congr 2; omega

theorem fill_append (a b : Bytes) (m n : Nat) (h : b.length ≤ n) : fill (a ++ b) (a.length + n) = a ++ fill b n := by
  have : a.length + n - (a.length + b.length) = n - b.length := by omega
  simp [fill, zeros, this]

/-- The buffer stands for a part of the file that ends where the source stands. -/
structure RInv (f : Bytes) (s : Rd) (p : Nat) : Prop where
  short : s.buf.length ≤ s.size
  data : fill s.buf s.size = slice f s.off s.size
  room : s.off + s.size ≤ f.length
  last : s.eof = true → s.off + s.size = f.length
  pos : s.err = 0 → p = s.off + s.size

theorem RInv.skip {f s p} (h : RInv f s p) (off : Nat) (h1 : ¬ (off < s.off ∨ off > s.off + s.size)) :
    RInv f (s.skip off) p ∧ (s.skip off).off = off ∧ (s.skip off).err = s.err := by
  have h1a : s.off ≤ off := by omega
  have h1b : off ≤ s.off + s.size := by omega
  have hr := h.room
  have hm : s.buf.drop (min (off - s.off) s.buf.length) = s.buf.drop (off - s.off) := by
    by_cases hl : off - s.off ≤ s.buf.length
    · rw [Nat.min_eq_left hl]
    · rw [Nat.min_eq_right (by omega), List.drop_length, List.drop_eq_nil_of_le (by omega)]
  unfold Rd.skip
  split
  · rename_i hgt
    refine ⟨?_, rfl, rfl⟩
    have hs := h.short
    constructor
    · dsimp only; rw [hm, List.length_drop]; omega
    · dsimp only
      rw [hm, ← fill_drop _ _ _ h.short, h.data, slice_drop]
      congr 1; omega
    · dsimp only; omega
    · intro he; have := h.last he; dsimp only; omega
    · intro he; have := h.pos he; dsimp only; omega
  · exact ⟨h, by omega, rfl⟩

theorem RInv.fetch {f s p need b n p'} (h : RInv f s p) (he : s.err = 0) (hg : Faithful f p need (.ok b n) p') :
    RInv f (s.fetch need b n) p' := by
  obtain ⟨g1, g2, g3, g4, g5⟩ := hg
  have hp := h.pos he
  have hs := h.short
  have hfl := fill_length s.buf s.size h.short
  have hcut : (fill s.buf s.size).take s.size = fill s.buf s.size := by rw [List.take_of_length_le]; omega
  refine ⟨?_, ?_, ?_, ?_, ?_⟩
  · show List.length (if b = [] then s.buf else _) ≤ s.size + n
    split
    · omega
    · rw [hcut, List.length_append, hfl]; omega
  · show fill (if b = [] then s.buf else _) (s.size + n) = slice f s.off (s.size + n)
    rw [← slice_append, ← h.data, ← hp, ← g2]
    split
    · rename_i hb
      subst hb
      simp only [fill, zeros, List.append_assoc, List.replicate_append_replicate, List.nil_append, List.length_nil]
      congr 2; omega
    · rw [hcut]
      have := fill_append (fill s.buf s.size) b 0 n g1
      rw [hfl] at this
      exact this
  · show s.off + (s.size + n) ≤ _; omega
  · intro hh
    show s.off + (s.size + n) = _
    have : n < need := by simpa [Rd.fetch] using hh
    have := g4 this
    omega
  · intro _
    show p' = s.off + (s.size + n)
    omega

theorem RRun.inv {f s p} (h : RRun f s p) : RInv f s p := by
  induction h with
  | init => exact ⟨by simp [Rd.init], by simp [Rd.init, fill, zeros, slice], by simp [Rd.init], by simp [Rd.init], by simp [Rd.init]⟩
  | idle h off size g hn ih =>
    rename_i s p
    unfold Rd.read
    split
    · exact ih
    · split
      · exact ih
      · rename_i h1 h2
        rw [if_pos (by rcases hn with hn | hn | hn | hn
                       · exact absurd hn h1
                       · exact absurd (Or.inl hn) h2
                       · exact absurd (Or.inr hn) h2
                       · exact hn)]
        exact (ih.skip off h2).1
  | fetch h off size g p' hn hg ih =>
    rename_i s p
    unfold Rd.read
    have n1 : ¬ s.err ≠ 0 := fun e => hn (Or.inl e)
    have n2 : ¬ (off < s.off ∨ off > s.off + s.size) := by
      rintro (e | e)
      · exact hn (Or.inr (Or.inl e))
      · exact hn (Or.inr (Or.inr (Or.inl e)))
    have n3 : ¬ s.need off size = 0 := fun e => hn (Or.inr (Or.inr (Or.inr e)))
    rw [if_neg n1, if_neg n2, if_neg n3]
    obtain ⟨i1, i2, i3⟩ := ih.skip off n2
    have he : s.err = 0 := by simpa using n1
    cases g with
    | fail e =>
      dsimp only
      refine ⟨i1.short, i1.data, i1.room, i1.last, ?_⟩
      intro hx
      exfalso
      revert hx
      show (if e ≠ 0 then e else EIO) = 0 → False
      split
      · rename_i hne; exact hne
      · simp [EIO]
    | ok b n => exact i1.fetch (by rw [i3, he]) hg

/-- What a call that succeeds gives is a part of the file. -/
theorem RInv.give {f s p} (h : RInv f s p) (size : Nat) {d n} (e : s.give size = .ok d n) :
    d.length ≤ n ∧ fill d n = slice f s.off n ∧ n ≤ size ∧ s.off + n ≤ f.length ∧ n = min s.size size := by
  simp only [Rd.give, Out.ok.injEq] at e
  obtain ⟨e1, e2⟩ := e
  have hs := h.short
  have hr := h.room
  refine ⟨?_, ?_, ?_, ?_, e2.symm⟩
  · rw [← e1, ← e2, List.length_take]; omega
  · have hm : s.buf.take (min s.buf.length (min s.size size)) = s.buf.take (min s.size size) := by
      by_cases hl : min s.size size ≤ s.buf.length
      · rw [Nat.min_eq_right hl]
      · rw [Nat.min_eq_left (by omega), List.take_length, List.take_of_length_le (by omega)]
    rw [← e1, ← e2, hm, ← fill_take _ _ _ (Nat.min_le_left s.size size), h.data, slice_take]
    congr 1; omega
  · omega
  · omega

/-- The state after a call whose do_read was faithful, and how the result relates to it. -/
theorem read_ok {f s p} (h : RRun f s p) (off size : Nat) (g : Got) (p' : Nat) (hg : s.need off size ≠ 0 → Faithful f p (s.need off size) g p')
    {t d n} (e : s.read off size g = (t, .ok d n)) :
    d.length ≤ n ∧ fill d n = slice f off n ∧ n ≤ size ∧ off + n ≤ f.length ∧ (n < size → off + n = f.length) ∧
      t.off = off ∧ n = min t.size size ∧ (∃ q, RInv f t q) := by
  have hi := h.inv
  unfold Rd.read at e
  split at e
  · simp at e
  split at e
  · simp at e
  rename_i n1 n2
  obtain ⟨i1, i2, i3⟩ := hi.skip off n2
  split at e
  · rename_i n3
    simp only [Prod.mk.injEq] at e
    obtain ⟨e1, e2⟩ := e
    obtain ⟨a1, a2, a3, a4, a5⟩ := i1.give size e2
    rw [i2] at a2 a4
    rw [e1] at i1 i2 a5
    refine ⟨a1, a2, a3, a4, ?_, i2, a5, p, i1⟩
    intro hlt
    simp only [Rd.need] at n3
    rw [e1] at n3
    split at n3
    · rename_i he
      have := i1.last he
      omega
    · omega
  · rename_i n3
    cases g with
    | fail x => simp at e
    | ok b m =>
      dsimp only at e
      simp only [Prod.mk.injEq] at e
      obtain ⟨e1, e2⟩ := e
      have he : s.err = 0 := by simpa using n1
      have hf := hg n3
      have j := i1.fetch (by rw [i3, he]) hf
      obtain ⟨a1, a2, a3, a4, a5⟩ := j.give size e2
      have j2 : ((s.skip off).fetch (s.need off size) b m).off = off := i2
      rw [j2] at a2 a4
      rw [e1] at j j2 a5
      refine ⟨a1, a2, a3, a4, ?_, j2, a5, p', j⟩
      intro hlt
      by_cases ht : t.eof = true
      · have := j.last ht; omega
      · exfalso
        rw [← e1] at ht a5
        simp only [Rd.fetch, decide_eq_true_eq] at ht a5
        simp only [Rd.need] at ht n3
        split at ht
        · rename_i hc; simp [hc] at n3
        · omega

/-- The write adaptor: device and buffer together are the file, until there is an error. -/
structure WInv (s : Wr) (acc : Bytes) : Prop where
  size : s.size = s.buf.length
  off : s.err = 0 → s.off = s.dev.length
  data : s.err = 0 → s.dev ++ s.buf = acc
  stuck : s.err ≠ 0 → s.buf ≠ []

theorem fill_fill_ge (a : Bytes) (n : Nat) : (fill a n).length = max a.length n := by
  simp only [fill, zeros, List.length_append, List.length_replicate]; omega

/-- Behind the end of what there is. -/
theorem place_end (f : Bytes) (off : Nat) (d : Bytes) (h : f.length ≤ off) : place f off d = fill f off ++ d := by
  have h1 : (fill f off).length = off := by rw [fill_fill_ge]; omega
  unfold place
  rw [List.take_of_length_le (by omega), List.drop_eq_nil_of_le (by omega), List.append_nil]

theorem WRun.inv {s acc} (h : WRun true s acc) : WInv s acc := by
  induction h with
  | init => exact ⟨rfl, fun _ => rfl, fun _ => rfl, fun e => absurd rfl e⟩
  | write h d off w hw hd ih =>
    rename_i s acc
    have key : ∀ (t : Wr) (a : Bytes), t.err = 0 → t.size = t.buf.length → t.off = t.dev.length → t.dev ++ t.buf = a →
        w.n ≤ (t.buf ++ d).length →
        WInv ((t.push d).flush w).1 (if ((t.push d).flush w).2 then a ++ d else acc) := by
      intro t a he h1 h2 h3 h4
      unfold Wr.flush
      split
      · rename_i hb
        have hb' : t.buf ++ d = [] := by simpa [Wr.push] using hb
        refine ⟨by simp [Wr.push], fun _ => by simpa [Wr.push] using h2, fun _ => ?_, fun e => absurd he e⟩
        simp only [Wr.push, if_true]
        rw [hb', ← h3, List.append_assoc, hb']
      · rename_i hb
        split
        · rename_i hr
          refine ⟨by simp [Wr.push], ?_, ?_, ?_⟩
          · intro e; exfalso; revert e; simp only [Wr.push]; split <;> simp_all [EIO]
          · intro e; exfalso; revert e; simp only [Wr.push]; split <;> simp_all [EIO]
          · intro _ hb2
            apply hb
            simp only [Wr.push] at hb2 ⊢
            simp [hb2]
        · refine ⟨?_, ?_, ?_, ?_⟩
          · simp only [Wr.push, List.length_drop]
          · intro _
            simp only [Wr.push, List.length_append, List.length_take] at h4 ⊢
            omega
          · intro _
            simp only [Wr.push, if_true, List.append_assoc, List.take_append_drop]
            rw [← h3, List.append_assoc]
          · intro e; exact absurd he e
    unfold Wr.write
    split
    · exact ih
    · rename_i n1
      have he : s.err = 0 := by simpa using n1
      split
      · exact ih
      · rename_i n2
        have hd1 := ih.data he
        have ho := ih.off he
        have hz := ih.size
        have hl : acc.length = s.off + s.size := by rw [← hd1, List.length_append, ho, hz]
        split
        · rename_i n3
          have hb := hd rfl n3
          have hk := key (s.seek off) (fill acc off) he (by simpa [Wr.seek] using hz)
            (by
              simp only [Wr.seek]
              rw [fill_length]
              omega)
            (by
              simp only [Wr.seek]
              rw [hb, List.append_nil, ← hd1, hb, List.append_nil])
            (by simp only [Wr.seek, List.length_append]; omega)
          rw [place_end _ _ _ (by omega)]
          exact hk
        · rw [place_end _ _ _ (by omega)]
          have : fill acc off = acc := fill_nil_of_le _ _ (by omega)
          rw [this]
          exact key s acc he hz ho hd1 (by rw [List.length_append]; exact hw)

end Braft.Buffered
