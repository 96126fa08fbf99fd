import Verif.Store.SegLogInit
/-
Properties of the segment files and of the segmented log storage: C19, C20, C21, C22.

The specification of the storage is an array of entries with consecutive indexes (`Arr`), the
operations on it (`Arr.apply`), and what may be left of an operation by a crash (`CrashRes`).
-/
set_option linter.unusedVariables false
set_option linter.unusedSimpArgs false
set_option linter.unusedSectionVars false

namespace Braft.Props
open Braft.Store

variable {K : Type}

/-! ## A codec for the examples: byte sums as checksums, configurations are numbers below 256 -/

def demoSum (b : Bytes) : UInt32 := UInt32.ofNat (b.foldl (fun a x => a + x.toNat) 0)

def demo : Codec (Fin 3) where
  murmur := demoSum
  crc := demoSum
  ckType := 1
  ckType_le := by decide
  ser k := [UInt8.ofNat k.val]
  parse b := match b with
    | [x] => if h : x.toNat < 3 then some ⟨x.toNat, h⟩ else none
    | _ => none
  parse_ser := by decide

def eA : Entry (Fin 3) := ⟨1, .data [7, 8, 9]⟩
def eB : Entry (Fin 3) := ⟨1, .conf 2⟩
def eC : Entry (Fin 3) := ⟨2, .data [5]⟩
def eD : Entry (Fin 3) := ⟨2, .noop⟩

theorem demo_fits : eA.Fits demo ∧ eB.Fits demo ∧ eC.Fits demo ∧ eD.Fits demo := by
  unfold Entry.Fits
  decide

/-! ## C19 -/

/-- Appending entries one after the other to a segment with file `file` (`Segment::append`). -/
def appendAll (c : Codec K) : Seg → Bytes → List (Entry K) → Option (Seg × Bytes)
  | s, file, [] => some (s, file)
  | s, file, e :: es =>
    match c.append s (s.last + 1) e with
    | none => none
    | some (s', bs) => appendAll c s' (file ++ bs) es

theorem appendAll_rep (c : Codec K) (es done : List (Entry K)) (s : Seg) (h : SegRep c s done)
    (ho : s.isOpen = true) (hf : ∀ e ∈ es, e.Fits c) :
    ∃ s', appendAll c s (c.encodeAll done) es = some (s', c.encodeAll (done ++ es)) ∧
      SegRep c s' (done ++ es) ∧ s'.first = s.first ∧ s'.isOpen = true := by
  induction es generalizing done s with
  | nil => exact ⟨s, by simp [appendAll], by simpa using h, rfl, ho⟩
  | cons e es ih =>
    obtain ⟨s1, h1, h2, h3, h4, h5⟩ := append_spec c s done h ho e (hf e (List.mem_cons_self ..))
    obtain ⟨s2, h6, h7, h8, h9⟩ := ih (done ++ [e]) s1 h2 h3 (fun x hx => hf x (List.mem_cons_of_mem _ hx))
    refine ⟨s2, ?_, by simpa using h7, by rw [h8, h4], h9⟩
    rw [appendAll, h1]
    dsimp only
    have : c.encodeAll done ++ c.encode e = c.encodeAll (done ++ [e]) := by
      rw [encodeAll_append, encodeAll_cons]; simp [Codec.encodeAll]
    rw [this, h6]; simp

/-- C19: entries appended to a new segment are read back, by index, exactly as they were written
(term, type, data or configuration), and indexes outside the segment give nothing. For every codec,
that is every pair of checksum functions and every invertible serialisation of configurations. -/
theorem C19_roundtrip (c : Codec K) (f : Nat) (hf : 1 ≤ f) (es : List (Entry K)) (hfit : ∀ e ∈ es, e.Fits c) :
    ∃ s file, appendAll c (newSeg f) [] es = some (s, file) ∧
      ∀ i, c.get s file i = (if f ≤ i then es[i - f]? else none) ∧
        s.getTerm i = (if f ≤ i then ((es[i - f]?).map Entry.term).getD 0 else 0) := by
  have h0 : SegRep c (newSeg f) ([] : List (Entry K)) :=
    ⟨rfl, by show f - 1 + 1 = f + 0; omega, hf, rfl, by simp⟩
  obtain ⟨s, h1, h2, h3, h4⟩ := appendAll_rep c es [] (newSeg f) h0 rfl hfit
  refine ⟨s, c.encodeAll es, by simpa [Codec.encodeAll] using h1, ?_⟩
  rw [List.nil_append] at h2
  have hfirst : s.first = f := h3
  intro i
  have hl := h2.last
  by_cases hin : f ≤ i ∧ i - f < es.length
  · have hg := get_spec c s es h2 (i - f) hin.2
    have ht := getTerm_spec c s es h2 (i - f) hin.2
    rw [hfirst, show f + (i - f) = i by omega] at hg ht
    rw [hg, ht, if_pos hin.1, if_pos hin.1, List.getElem?_eq_getElem hin.2]
    exact ⟨rfl, rfl⟩
  · have hm : s.getMeta i = none := by
      unfold Seg.getMeta
      rw [if_pos (by omega)]
    have h5 : c.get s (c.encodeAll es) i = none := by unfold Codec.get; rw [hm]
    have h6 : s.getTerm i = 0 := by unfold Seg.getTerm; rw [hm]
    rw [h5, h6]
    by_cases h1 : f ≤ i
    · rw [if_pos h1, if_pos h1, List.getElem?_eq_none (by omega)]; exact ⟨rfl, rfl⟩
    · rw [if_neg h1, if_neg h1]; exact ⟨rfl, rfl⟩

example : ∃ s file, appendAll demo (newSeg 5) [] [eA, eB, eD] = some (s, file) ∧
    demo.get s file 6 = some eB ∧ demo.get s file 7 = some eD ∧ demo.get s file 8 = none := by
  refine ⟨_, _, rfl, ?_⟩
  decide +kernel

/-- The number is the checksum of the bytes, by the function that the type names; there are two types. -/
def Sums (c : Codec K) (ty : Nat) (b : Bytes) (value : Nat) : Prop :=
  (ty = 0 ∧ value = (c.murmur b).toNat) ∨ (ty = 1 ∧ value = (c.crc b).toNat)

theorem sums_of (c : Codec K) (ty : Nat) (b : Bytes) (v : Nat) (h : c.verify ty b v = true) : Sums c ty b v := by
  unfold Codec.verify at h
  split at h
  · rename_i h1; exact Or.inl ⟨h1, by simpa using h⟩
  · split at h
    · rename_i h1; exact Or.inr ⟨h1, by simpa using h⟩
    · cases h

/-- C19: whatever the file contains and whatever the segment object says, an entry is only returned
if, at some offset of the file, there are 24 bytes whose first 20 match the checksum in the last four,
followed by the announced number of data bytes matching the data checksum, and the entry is what
these bytes say. -/
theorem C19_only_verified (c : Codec K) (s : Seg) (file : Bytes) (i : Nat) (e : Entry K)
    (h : c.get s file i = some e) :
    ∃ off, off + 24 ≤ file.length ∧
      let hd := parseHeader (pread file off 24)
      let data := pread file (off + 24) hd.dataLen
      Sums c hd.ckType (pread file off 20) (unbe (pread file (off + 20) 4)) ∧
      Sums c hd.ckType data hd.dataSum ∧ data.length = hd.dataLen ∧
      c.toEntry hd data = some e := by
  unfold Codec.get at h
  cases hm : s.getMeta i with
  | none => rw [hm] at h; simp at h
  | some x =>
    obtain ⟨off, t, len⟩ := x
    rw [hm] at h
    dsimp only at h
    cases hl : c.loadEntry file off true len with
    | short => rw [hl] at h; simp at h
    | corrupt => rw [hl] at h; simp at h
    | ok hd d =>
      rw [hl] at h
      dsimp only at h
      obtain ⟨h1, h2, h3, h4⟩ := loadEntry_sound c file off true len hd d hl
      obtain ⟨h5, h6, h7⟩ := h4 rfl
      refine ⟨off, h1, ?_⟩
      rw [← h2]
      dsimp only
      rw [← h7]
      exact ⟨sums_of _ _ _ _ h3, sums_of _ _ _ _ h5, h6, h⟩

/-- A file with one wrong data byte: the entry is not returned. -/
example : demo.get ⟨1, 1, true, [(0, 1)], 27⟩ ((demo.encode eA).set 25 0) 1 = none ∧
    demo.get ⟨1, 1, true, [(0, 1)], 27⟩ (demo.encode eA) 1 = some eA := by decide +kernel

/-- The limit of the format (log.cpp:419): the length of an entry's data is stored in 32 bits, and
`append` does not refuse longer data (the check at log.cpp:413 allows 2^56 bytes). Such an entry is
accepted, but never read back. -/
theorem C19_oversize_lost (c : Codec K) (f : Nat) (hf : 1 ≤ f) (t : Nat) (d : Bytes) (hd : 2 ^ 32 ≤ d.length)
    (s : Seg) (file : Bytes) (ha : appendAll c (newSeg f) [] [⟨t, .data d⟩] = some (s, file)) :
    c.get s file f ≠ some ⟨t, .data d⟩ := by
  intro h
  unfold Codec.get at h
  cases hm : s.getMeta f with
  | none => rw [hm] at h; simp at h
  | some x =>
    obtain ⟨off, t', len⟩ := x
    rw [hm] at h
    dsimp only at h
    cases hl : c.loadEntry file off true len with
    | short => rw [hl] at h; simp at h
    | corrupt => rw [hl] at h; simp at h
    | ok h0 d0 =>
      rw [hl] at h
      dsimp only at h
      obtain ⟨h1, h2, h3, h4⟩ := loadEntry_sound c file off true len h0 d0 hl
      obtain ⟨h5, h6, h7⟩ := h4 rfl
      have hlt : h0.dataLen < 2 ^ 32 := by
        rw [h2]
        unfold parseHeader
        dsimp only
        have hub : ∀ b : Bytes, unbe b < 256 ^ b.length := by
          intro b
          refine snoc_induction (P := fun b => unbe b < 256 ^ b.length) (by simp [unbe]) ?_ b
          intro p x ih
          rw [unbe_append, List.length_append, List.length_singleton, Nat.pow_succ]
          have := x.toNat_lt
          omega
        have := hub (((pread file off 24).drop 12).take 4)
        have hle : (((pread file off 24).drop 12).take 4).length ≤ 4 := by simp; omega
        have h4' : (256 : Nat) ^ 4 = 2 ^ 32 := by decide
        calc _ < 256 ^ _ := this
          _ ≤ 256 ^ 4 := Nat.pow_le_pow_right (by decide) hle
          _ = 2 ^ 32 := h4'
      unfold Codec.toEntry at h
      split at h
      · simp at h
        obtain ⟨_, hh⟩ := h
        subst hh
        omega
      · split at h
        · simp at h
        · split at h
          · cases hp : c.parse d0 with
            | none => rw [hp] at h; simp at h
            | some k => rw [hp] at h; simp at h
          · simp at h

/-! ## C20 -/

/-- Every prefix of a segment file is some complete records and a torn one. -/
theorem prefix_records (c : Codec K) (es : List (Entry K)) (hf : ∀ e ∈ es, e.Fits c) (n : Nat) :
    ∃ k tail, (c.encodeAll es).take n = c.encodeAll (es.take k) ++ tail ∧ Torn c tail ∧ k ≤ es.length ∧
      (c.encodeAll (es.take k)).length ≤ n ∧
      (k < es.length → n < (c.encodeAll (es.take (k + 1))).length) := by
  induction es generalizing n with
  | nil => exact ⟨0, [], by simp [Codec.encodeAll], Or.inl rfl, by simp, by simp [Codec.encodeAll], by simp⟩
  | cons e es ih =>
    by_cases hn : n < (c.encode e).length
    · refine ⟨0, (c.encode e).take n, ?_, ?_, by simp, by simp [Codec.encodeAll], ?_⟩
      · rw [encodeAll_cons, List.take_append_of_le_length (by omega)]; simp [Codec.encodeAll]
      · right
        exact ⟨e, hf e (List.mem_cons_self ..), List.take_prefix _ _, by rw [List.length_take]; omega⟩
      · intro _; simpa [Codec.encodeAll] using hn
    · obtain ⟨k, tail, h1, h2, h3, h4, h5⟩ := ih (fun x hx => hf x (List.mem_cons_of_mem _ hx))
        (n - (c.encode e).length)
      refine ⟨k + 1, tail, ?_, h2, by simpa using h3, ?_, ?_⟩
      · rw [List.take_succ_cons, encodeAll_cons, encodeAll_cons, List.take_append, h1,
          List.take_of_length_le (by omega), List.append_assoc]
      · rw [List.take_succ_cons, encodeAll_cons, List.length_append]; omega
      · intro hk
        have := h5 (by simpa using hk)
        rw [List.take_succ_cons, encodeAll_cons, List.length_append]; omega

/-- C20: let `es` be the entries appended to an open segment, and let the crash have left the first `n`
bytes of the file, for any `n`. Then `load` succeeds, it cuts the file to the records that are
complete, these are the first `k` entries with `k` as large as the `n` bytes allow, all of them (and no
others) can be read, their configurations are reported in order, and appending any further entries
works as if nothing had happened. -/
theorem C20_recovery (c : Codec K) (recover : Bool) (f : Nat) (hf : 1 ≤ f) (es : List (Entry K))
    (hfit : ∀ e ∈ es, e.Fits c) (n : Nat) :
    ∃ k s size, k ≤ es.length ∧
      (c.encodeAll (es.take k)).length ≤ n ∧ (k < es.length → n < (c.encodeAll (es.take (k + 1))).length) ∧
      c.load recover (newSeg f) ((c.encodeAll es).take n) = some (s, confsOf f (es.take k), size) ∧
      s.last + 1 = f + k ∧
      (let file := ((c.encodeAll es).take n).take size
       (∀ i, c.get s file i = if f ≤ i then (es.take k)[i - f]? else none) ∧
       ∀ more : List (Entry K), (∀ e ∈ more, e.Fits c) →
         ∃ s' file', appendAll c s file more = some (s', file') ∧
           (∀ i, c.get s' file' i = if f ≤ i then (es.take k ++ more)[i - f]? else none) ∧
           ∃ s2, c.load recover (newSeg f) file' = some (s2, confsOf f (es.take k ++ more), file'.length) ∧
             s2 = s') := by
  obtain ⟨k, tail, h1, h2, h3, h4, h5⟩ := prefix_records c es hfit n
  have hfk : ∀ e ∈ es.take k, e.Fits c := fun e he => hfit e (List.mem_of_mem_take he)
  obtain ⟨s, hl, hr, ho, hfirst⟩ := load_open c recover f hf (f - 1) 0 (es.take k) hfk tail h2
  -- reading a represented segment
  have hget : ∀ (s : Seg) (xs : List (Entry K)), SegRep c s xs → s.first = f →
      ∀ i, c.get s (c.encodeAll xs) i = if f ≤ i then xs[i - f]? else none := by
    intro s xs hs hfs i
    have hl := hs.last
    by_cases hin : f ≤ i ∧ i - f < xs.length
    · have hg := get_spec c s xs hs (i - f) hin.2
      rw [hfs, show f + (i - f) = i by omega] at hg
      rw [hg, if_pos hin.1, List.getElem?_eq_getElem hin.2]
    · have hm : s.getMeta i = none := by
        unfold Seg.getMeta
        rw [if_pos (by omega)]
      have h5 : c.get s (c.encodeAll xs) i = none := by unfold Codec.get; rw [hm]
      rw [h5]
      by_cases h1 : f ≤ i
      · rw [if_pos h1, List.getElem?_eq_none (by omega)]
      · rw [if_neg h1]
  refine ⟨k, s, (c.encodeAll (es.take k)).length, h3, h4, h5, by rw [h1]; exact hl, ?_, ?_⟩
  · have := hr.last
    rw [hfirst, List.length_take, Nat.min_eq_left h3] at this
    exact this
  · have hfile : ((c.encodeAll es).take n).take (c.encodeAll (es.take k)).length = c.encodeAll (es.take k) := by
      rw [h1]; exact take_append_len _ _ _ rfl
    rw [hfile]
    dsimp only
    refine ⟨hget s _ hr hfirst, ?_⟩
    intro more hmore
    obtain ⟨s', a1, a2, a3, a4⟩ := appendAll_rep c more (es.take k) s hr ho hmore
    refine ⟨s', _, a1, hget s' _ a2 (by rw [a3, hfirst]), ?_⟩
    have hfm : ∀ e ∈ es.take k ++ more, e.Fits c := by
      intro e he
      rcases List.mem_append.mp he with he | he
      · exact hfk e he
      · exact hmore e he
    obtain ⟨s2, b1, b2, b3, b4⟩ := load_open c recover f hf (f - 1) 0 (es.take k ++ more) hfm [] (Or.inl rfl)
    rw [List.append_nil] at b1
    refine ⟨s2, b1, ?_⟩
    rw [b2.eq_segOf, a2.eq_segOf, b3, b4, a3, a4, hfirst]

/-- Three entries, the crash left 60 of 77 bytes: two entries survive. -/
example : (demo.encodeAll [eA, eB, eC]).length = 77 ∧
    ∃ s, demo.load false (newSeg 1) ((demo.encodeAll [eA, eB, eC]).take 60) = some (s, [(2, 1, 2)], 52) ∧
      s.last = 2 := by
  refine ⟨by decide +kernel, ⟨1, 2, true, [(0, 1), (27, 1)], 52⟩, ?_, rfl⟩
  decide +kernel

/-- What the recovery does not do (log.cpp:316-318): when the *data* of a configuration entry in the
middle of an open segment does not match its checksum, the loop stops with return value 0, `load`
succeeds, and all later complete entries are cut off, without the flag
`raft_recover_log_from_corrupt`. -/
theorem C20_corrupt_configuration_truncates :
    ∃ file s, file = (demo.encodeAll [eA, eB, eC, eD]).set 51 0 ∧
      demo.load false (newSeg 1) file = some (s, [], 27) ∧ s.last = 1 ∧
      demo.encodeAll [eC, eD] = file.drop 52 := by
  refine ⟨_, ⟨1, 1, true, [(0, 1)], 27⟩, rfl, ?_, rfl, ?_⟩ <;> decide +kernel

/-! ## C21, C22: the storage -/

/-- The operations of the storage that change it. -/
inductive LogOp (K : Type) where
  | append (es : List (Entry K))
  | truncPrefix (firstKept : Nat)
  | truncSuffix (lastKept : Nat)
  | reset (next : Nat)

/-- Specification: the effect on the array. -/
def arrApply (A : Arr K) : LogOp K → Arr K
  | .append es => ⟨A.first, A.ents ++ es⟩
  | .truncPrefix k => if k ≤ A.first then A else ⟨k, A.ents.drop (k - A.first)⟩
  | .truncSuffix k => ⟨A.first, A.ents.take (k + 1 - A.first)⟩
  | .reset n => ⟨n, []⟩

/-- The callers' side: entries the format can hold; the last index kept lies between the index before
the first entry and the last entry (LogManager's calls); a log starts at 1 or later. -/
def OpOk (c : Codec K) (A : Arr K) : LogOp K → Prop
  | .append es => ∀ e ∈ es, e.Fits c
  | .truncPrefix _ => True
  | .truncSuffix k => A.first ≤ k + 1 ∧ k + 1 ≤ A.first + A.ents.length
  | .reset n => 1 ≤ n

/-- What a crash during an operation may leave: the old log, the new one, or a log in between. -/
def CrashRes (A : Arr K) : LogOp K → Arr K → Prop
  | .append es, B => ∃ j, j ≤ es.length ∧ B = ⟨A.first, A.ents ++ es.take j⟩
  | .truncPrefix k, B => B = A ∨ B = arrApply A (.truncPrefix k)
  | .truncSuffix k, B => ∃ j, k + 1 - A.first ≤ j ∧ B = ⟨A.first, A.ents.take j⟩
  | .reset n, B => B = A ∨ B = ⟨n, []⟩

/-- The implementation of an operation: new memory and file-system calls. -/
def logExec (c : Codec K) (maxSeg : Nat) (m : Mem) : LogOp K → Mem × List Act
  | .append es => ((c.appendEntries maxSeg m (m.last + 1) es).1, (c.appendEntries maxSeg m (m.last + 1) es).2.1)
  | .truncPrefix k => truncatePrefix m k
  | .truncSuffix k => ((truncateSuffix m k).1, (truncateSuffix m k).2.1)
  | .reset n => resetLog m n

/-- What the API shows of a storage is the array. -/
def Shows (c : Codec K) (s : Mem × Disk) (A : Arr K) : Prop :=
  s.1.first = A.first ∧ s.1.last + 1 = A.first + A.ents.length ∧
  (∀ i, c.getEntry s.1 s.2 i = if A.first ≤ i then A.ents[i - A.first]? else none) ∧
  (∀ i, getTermAt s.1 i = if A.first ≤ i then ((A.ents[i - A.first]?).map Entry.term).getD 0 else 0)

/-- The states of the directory after any number of crashes during the recovery of `d`. -/
inductive RecCrash (c : Codec K) (recover : Bool) : Disk → Disk → Prop
  | refl (d) : RecCrash c recover d d
  | step (d d' d'') : Crash d' d (c.init recover d).1 → RecCrash c recover d' d'' → RecCrash c recover d d''

/-- All histories of a storage, with the array the specification gives for it. A history starts in a
directory without meta file and goes on with completed operations, restarts, and crashes inside
operations followed by a restart (which may itself crash and be repeated); after a crash the array is
what the restarted storage shows. -/
inductive Hist (c : Codec K) (maxSeg : Nat) (recover : Bool) : Mem × Disk → Arr K → Prop
  | start (d : Disk) (acts m confs) : d.metaIdx = none → c.init recover d = (acts, some (m, confs)) →
      Hist c maxSeg recover (m, applyAll d acts) ⟨1, []⟩
  | op (m d A) (o : LogOp K) : Hist c maxSeg recover (m, d) A → OpOk c A o →
      Hist c maxSeg recover ((logExec c maxSeg m o).1, applyAll d (logExec c maxSeg m o).2) (arrApply A o)
  | reopen (m d A acts m' confs) : Hist c maxSeg recover (m, d) A → c.init recover d = (acts, some (m', confs)) →
      Hist c maxSeg recover (m', applyAll d acts) A
  | crash (m d A) (o : LogOp K) (d1 d2 acts m' confs B) : Hist c maxSeg recover (m, d) A → OpOk c A o →
      (∀ n, o = .reset n → A.first + A.ents.length ≤ n) →
      Crash d1 d (logExec c maxSeg m o).2 → RecCrash c recover d1 d2 →
      c.init recover d2 = (acts, some (m', confs)) → Shows c (m', applyAll d2 acts) B →
      Hist c maxSeg recover (m', applyAll d2 acts) B

theorem rep_shows (c : Codec K) (m : Mem) (d : Disk) (A : Arr K) (h : Rep c m d A) : Shows c (m, d) A := by
  refine ⟨?_, ?_, getEntry_rep c m d A h, getTerm_rep c m d A h⟩
  · obtain ⟨base, chunks, oc, hg, hd, hb, hlive, hents, hm⟩ := h
    rw [hm]
  · obtain ⟨base, chunks, oc, hg, hd, hb, hlive, hents, hm⟩ := h
    rw [hm]
    have := hg.pos
    show A.first + A.ents.length - 1 + 1 = _
    omega

/-- The array is determined by what the API shows. -/
theorem shows_unique (c : Codec K) (s : Mem × Disk) (A B : Arr K) (ha : Shows c s A) (hb : Shows c s B) :
    A = B := by
  obtain ⟨a1, a2, a3, _⟩ := ha
  obtain ⟨b1, b2, b3, _⟩ := hb
  obtain ⟨f, ea⟩ := A
  obtain ⟨g, eb⟩ := B
  simp only at *
  have hfg : f = g := by omega
  subst hfg
  congr 1
  apply List.ext_getElem?
  intro i
  have h1 := a3 (f + i)
  have h2 := b3 (f + i)
  rw [if_pos (by omega), show f + i - f = i by omega] at h1 h2
  rw [← h1, ← h2]

theorem exec_rep (c : Codec K) (maxSeg : Nat) (m : Mem) (d : Disk) (A : Arr K) (h : Rep c m d A) (o : LogOp K)
    (ho : OpOk c A o) :
    Rep c (logExec c maxSeg m o).1 (applyAll d (logExec c maxSeg m o).2) (arrApply A o) ∧
    ((∀ n, o = .reset n → A.first + A.ents.length ≤ n) →
      ∀ d', Crash d' d (logExec c maxSeg m o).2 → ∃ B, CrashRes A o B ∧ DiskRep c d' B) := by
  cases o with
  | append es =>
    simp only [logExec, arrApply, CrashRes]
    cases es with
    | nil =>
      refine ⟨by simpa [Codec.appendEntries, applyAll] using h, ?_⟩
      intro _ d' hc
      have hc' : d' = d := hc
      subst hc'
      exact ⟨A, ⟨0, by simp, by simp⟩, h.disk⟩
    | cons e es =>
      have := appendLoop_rep c maxSeg (e :: es) m d A h ho
      simp only [Codec.appendEntries, ne_eq, not_true_eq_false, if_false]
      refine ⟨this.1, ?_⟩
      intro _ d' hc
      obtain ⟨j, hj, hd⟩ := this.2.2 d' hc
      exact ⟨_, ⟨j, hj, rfl⟩, hd⟩
  | truncPrefix k =>
    have := truncatePrefix_rep c m d A h k
    refine ⟨this.1, ?_⟩
    intro _ d' hc
    rcases this.2 d' hc with h | h
    · exact ⟨A, Or.inl rfl, h⟩
    · exact ⟨_, Or.inr rfl, h⟩
  | truncSuffix k =>
    have := truncateSuffix_rep c m d A h k ho.1 ho.2
    refine ⟨this.1, ?_⟩
    intro _ d' hc
    obtain ⟨j, hj, hd⟩ := this.2 d' hc
    exact ⟨_, ⟨j, hj, rfl⟩, hd⟩
  | reset n =>
    have := resetLog_rep c m d A h n ho
    refine ⟨this.1, ?_⟩
    intro hn d' hc
    rcases this.2 (hn n rfl) d' hc with h | h
    · exact ⟨A, Or.inl rfl, h⟩
    · exact ⟨_, Or.inr rfl, h⟩

theorem recCrash_rep (c : Codec K) (recover : Bool) (d d' : Disk) (A : Arr K) (h : DiskRep c d A)
    (hr : RecCrash c recover d d') : DiskRep c d' A := by
  induction hr with
  | refl => exact h
  | step d1 d2 d3 h1 h2 ih =>
    obtain ⟨acts, m, stale, hi, _, _, hc⟩ := init_rep c recover d1 A h
    rw [hi] at h1
    exact ih (hc _ h1)

theorem hist_rep (c : Codec K) (maxSeg : Nat) (recover : Bool) (s : Mem × Disk) (A : Arr K)
    (h : Hist c maxSeg recover s A) : Rep c s.1 s.2 A := by
  induction h with
  | start d acts m confs hd hi =>
    obtain ⟨acts', h1, h2, _⟩ := init_empty c recover d hd
    rw [h1] at hi
    simp only [Prod.mk.injEq, Option.some.injEq] at hi
    obtain ⟨ha, hm, _⟩ := hi
    subst ha; subst hm
    dsimp only
    rw [h2]
    exact empty_rep c 1 (Nat.le_refl _) []
  | op m d A o _ ho ih => exact (exec_rep c maxSeg m d A ih o ho).1
  | reopen m d A acts m' confs _ hi ih =>
    obtain ⟨acts', m1, stale, h1, _, h2, _⟩ := init_rep c recover d A ih.disk
    rw [h1] at hi
    simp only [Prod.mk.injEq, Option.some.injEq] at hi
    obtain ⟨ha, hm, _⟩ := hi
    subst ha; subst hm
    exact h2
  | crash m d A o d1 d2 acts m' confs B _ ho hres hc hrc hi hB ih =>
    obtain ⟨B', _, hd⟩ := (exec_rep c maxSeg m d A ih o ho).2 hres d1 hc
    obtain ⟨acts', m1, stale, h1, _, h2, _⟩ := init_rep c recover d2 B' (recCrash_rep c recover d1 d2 B' hd hrc)
    rw [h1] at hi
    simp only [Prod.mk.injEq, Option.some.injEq] at hi
    obtain ⟨ha, hm, _⟩ := hi
    subst ha; subst hm
    have := shows_unique c _ _ _ hB (rep_shows c m1 _ B' h2)
    subst this
    exact h2

/-- C21: through any history of operations, restarts and crashes, first_log_index, last_log_index,
get_entry and get_term agree with the array at every index; for every segment size. -/
theorem C21_array (c : Codec K) (maxSeg : Nat) (recover : Bool) (s : Mem × Disk) (A : Arr K)
    (h : Hist c maxSeg recover s A) : Shows c s A :=
  rep_shows c s.1 s.2 A (hist_rep c maxSeg recover s A h)

/-- C21: append_entries accepts all entries that continue the log, and refuses any others. -/
theorem C21_append_result (c : Codec K) (maxSeg : Nat) (recover : Bool) (m : Mem) (d : Disk) (A : Arr K)
    (h : Hist c maxSeg recover (m, d) A) (idx : Nat) (es : List (Entry K)) (hf : ∀ e ∈ es, e.Fits c)
    (hne : es ≠ []) :
    (idx = A.first + A.ents.length → (c.appendEntries maxSeg m idx es).2.2 = some es.length) ∧
    (idx ≠ A.first + A.ents.length → c.appendEntries maxSeg m idx es = (m, [], none)) := by
  have hr := hist_rep c maxSeg recover _ _ h
  have hl := (rep_shows c m d A hr).2.1
  simp only at hl
  cases es with
  | nil => exact (hne rfl).elim
  | cons e es =>
    unfold Codec.appendEntries
    refine ⟨?_, ?_⟩
    · intro hi
      simp only
      rw [if_neg (by omega)]
      have := (appendLoop_rep c maxSeg (e :: es) m d A hr hf).2.1
      simp only [this]
    · intro hi
      simp only
      rw [if_pos (by omega)]

/-- C21: reopening never fails, shows the same array, and reports exactly the configurations in the log,
in order, preceded perhaps by some before the first index. -/
theorem C21_reopen (c : Codec K) (maxSeg : Nat) (recover : Bool) (m : Mem) (d : Disk) (A : Arr K)
    (h : Hist c maxSeg recover (m, d) A) :
    ∃ acts m' stale, c.init recover d = (acts, some (m', stale ++ confsOf A.first A.ents)) ∧
      (∀ x ∈ stale, x.1 < A.first) ∧ Shows c (m', applyAll d acts) A := by
  obtain ⟨acts, m', stale, h1, h2, h3, _⟩ := init_rep c recover d A (hist_rep c maxSeg recover _ _ h).disk
  exact ⟨acts, m', stale, h1, h2, rep_shows c m' _ A h3⟩

/-- C22: a crash at any point of an operation, followed by any number of crashes during recovery, leaves
a directory that opens, and the log it shows is the old one, the new one or one in between as described
by `CrashRes`: after truncate_prefix the old or the new log; after truncate_suffix the same first index
and a prefix containing everything meant to be kept; after append the old log and a prefix of the new
entries. For `reset` only calls with a next index beyond the log are covered: see
`C22_reset_counterexample`. -/
theorem C22_crash_partial (c : Codec K) (maxSeg : Nat) (recover : Bool) (m : Mem) (d : Disk) (A : Arr K)
    (h : Hist c maxSeg recover (m, d) A) (o : LogOp K) (ho : OpOk c A o)
    (hres : ∀ n, o = .reset n → A.first + A.ents.length ≤ n) (d1 d2 : Disk)
    (hc : Crash d1 d (logExec c maxSeg m o).2) (hrc : RecCrash c recover d1 d2) :
    ∃ acts m' confs B, c.init recover d2 = (acts, some (m', confs)) ∧ CrashRes A o B ∧
      Shows c (m', applyAll d2 acts) B := by
  obtain ⟨B, hB, hd⟩ := (exec_rep c maxSeg m d A (hist_rep c maxSeg recover _ _ h) o ho).2 hres d1 hc
  obtain ⟨acts, m', stale, h1, _, h2, _⟩ := init_rep c recover d2 B (recCrash_rep c recover d1 d2 B hd hrc)
  exact ⟨acts, m', _, B, h1, hB, rep_shows c m' _ B h2⟩

/-! ### Examples and counterexamples -/

/-- Segments of one entry each: four appended entries. -/
def demoStart : Mem × Disk := (⟨1, 0, [], none⟩, ⟨some 1, [], []⟩)

def demo4 : Mem × Disk :=
  let r := logExec demo 10 demoStart.1 (.append [eA, eB, eC, eD])
  (r.1, applyAll demoStart.2 r.2)

theorem demo4_hist : Hist demo 10 false demo4 ⟨1, [eA, eB, eC, eD]⟩ := by
  have h0 : Hist demo 10 false demoStart ⟨1, []⟩ :=
    .start ⟨none, [], []⟩ [.saveMeta 1] ⟨1, 0, [], none⟩ [] rfl rfl
  refine Hist.op demoStart.1 demoStart.2 ⟨1, []⟩ (.append [eA, eB, eC, eD]) h0 ?_
  obtain ⟨h1, h2, h3, h4⟩ := demo_fits
  intro e he
  simp only [List.mem_cons, List.not_mem_nil, or_false] at he
  rcases he with he | he | he | he <;> subst he <;> assumption

/-- The history has three full segments and an open one. -/
example : demo4.2.closed.map (fun f => (f.first, f.last)) = [(1, 1), (2, 2), (3, 3)] ∧
    demo4.2.opens.map Prod.fst = [4] ∧ demo4.1.first = 1 ∧ demo4.1.last = 4 := by decide +kernel

/-- Truncations are within the hypotheses: prefix 3, then suffix 3 (keeping entry 3 only). -/
example : Hist demo 10 false
    (let r := truncatePrefix demo4.1 3
     let s := truncateSuffix r.1 3
     (s.1, applyAll (applyAll demo4.2 r.2) s.2.1)) ⟨3, [eC]⟩ := by
  have h1 := Hist.op _ _ _ (.truncPrefix 3) demo4_hist trivial
  have h2 := Hist.op _ _ _ (.truncSuffix 3) h1 ⟨by decide, by decide⟩
  exact h2

/-- C22, `reset` to an index inside the log: three different things can go wrong when the process is
killed after the meta file has been written but before all segment files are gone (log.cpp:966-997).
`reset(3)`, killed right after save_meta: entries 3 and 4, which the call was to discard, are back.
`reset(2)`, killed after two unlinks: the storage does not open any more ("closed segment has hole").
`reset(3)`, killed after three unlinks: the storage opens with first_log_index 3 although only entry 4
exists. -/
theorem C22_reset_counterexample :
    Hist demo 10 false demo4 ⟨1, [eA, eB, eC, eD]⟩ ∧
    (∃ d1 acts m' confs, Crash d1 demo4.2 (logExec demo 10 demo4.1 (.reset 3)).2 ∧
      demo.init false d1 = (acts, some (m', confs)) ∧ m'.first = 3 ∧ m'.last = 4 ∧
      demo.getEntry m' (applyAll d1 acts) 3 = some eC ∧ demo.getEntry m' (applyAll d1 acts) 4 = some eD) ∧
    (∃ d1 acts, Crash d1 demo4.2 (logExec demo 10 demo4.1 (.reset 2)).2 ∧ demo.init false d1 = (acts, none)) ∧
    (∃ d1 acts m' confs, Crash d1 demo4.2 (logExec demo 10 demo4.1 (.reset 3)).2 ∧
      demo.init false d1 = (acts, some (m', confs)) ∧ m'.first = 3 ∧ m'.last = 4 ∧
      demo.getEntry m' (applyAll d1 acts) 3 = none ∧ demo.getEntry m' (applyAll d1 acts) 4 = some eD) := by
  have hc : ∀ (n : Nat) (d : Disk) (as : List Act), Crash (applyAll d (as.take n)) d as := by
    intro n d as
    induction as generalizing n d with
    | nil => simp [Crash, applyAll]
    | cons a as ih =>
      cases n with
      | zero => exact Or.inl rfl
      | succ n => exact Or.inr (Or.inr (ih n _))
  refine ⟨demo4_hist, ?_, ?_, ?_⟩
  · refine ⟨_, _, _, _, hc 1 _ _, rfl, ?_⟩
    decide +kernel
  · refine ⟨_, [], hc 3 _ _, ?_⟩
    decide +kernel
  · refine ⟨_, _, _, _, hc 4 _ _, rfl, ?_⟩
    decide +kernel

/-- Outside the callers' contract (log.cpp:880-917): `truncate_suffix` with a last index beyond the log
makes the storage claim entries it does not have. -/
theorem C21_suffix_beyond_end :
    let r := truncateSuffix demo4.1 9
    r.1.last = 9 ∧ demo.getEntry r.1 (applyAll demo4.2 r.2.1) 7 = none := by decide +kernel

/-- `truncate_suffix` on an empty log reports failure (-1) although nothing is wrong (log.cpp:925). -/
theorem C21_suffix_empty_reports_failure : truncateSuffix demoStart.1 0 = (⟨1, 0, [], none⟩, [], false) := by
  decide

end Braft.Props
