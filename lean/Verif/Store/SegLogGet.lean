import Verif.Store.SegLogRep
/- Reading: `get_entry` and `get_term` of a represented storage. -/
set_option linter.unusedVariables false
set_option linter.unusedSimpArgs false
set_option linter.unusedSectionVars false

namespace Braft.Store

variable {K : Type}

theorem segs_find (c : Codec K) (b : Nat) (cs : List (List (Entry K))) (hne : ∀ x ∈ cs, x ≠ []) (i : Nat)
    (h1 : b ≤ i) (h2 : i < b + total cs) :
    ∃ c1 x c2, cs = c1 ++ x :: c2 ∧ b + total c1 ≤ i ∧ i < b + total c1 + x.length ∧
      ((c.segs b cs).takeWhile (fun s => decide (s.first ≤ i))).getLast? =
        some (c.segOf (b + total c1) false x) := by
  induction cs generalizing b with
  | nil => rw [total_nil] at h2; omega
  | cons x xs ih =>
    rw [total_cons] at h2
    have hfst : (c.segOf b false x).first = b := rfl
    simp only [Codec.segs, List.takeWhile_cons, hfst, h1, decide_true, if_true]
    by_cases hlt : i < b + x.length
    · refine ⟨[], x, xs, rfl, by simpa [total_nil] using h1, by simpa [total_nil] using hlt, ?_⟩
      have hnil : (c.segs (b + x.length) xs).takeWhile (fun s => decide (s.first ≤ i)) = [] := by
        cases xs with
        | nil => rfl
        | cons y ys =>
          have hf2 : (c.segOf (b + x.length) false y).first = b + x.length := rfl
          simp only [Codec.segs, List.takeWhile_cons, hf2]
          rw [if_neg]; simp; omega
      rw [hnil]; simp [total_nil]
    · obtain ⟨c1, y, c2, he, ha, hb, hl⟩ := ih (b + x.length) (fun y hy => hne y (List.mem_cons_of_mem _ hy))
        (by omega) (by omega)
      refine ⟨x :: c1, y, c2, by rw [he]; rfl, by rw [total_cons]; omega, by rw [total_cons]; omega, ?_⟩
      rw [List.getLast?_cons, hl, total_cons]
      simp [Nat.add_assoc]

theorem files_find (c : Codec K) (b : Nat) (c1 : List (List (Entry K))) (x : List (Entry K))
    (c2 : List (List (Entry K))) (hne : ∀ y ∈ c1 ++ x :: c2, y ≠ []) :
    (c.files b (c1 ++ x :: c2)).find? (isC (b + total c1) (b + total c1 + x.length - 1)) =
      some ⟨b + total c1, b + total c1 + x.length - 1, c.encodeAll x⟩ := by
  rw [files_append, List.find?_append]
  have : (c.files b c1).find? (isC (b + total c1) (b + total c1 + x.length - 1)) = none := by
    apply List.find?_eq_none.mpr
    intro y hy
    have := files_mem c b c1 (fun y hy => hne y (List.mem_append_left _ hy)) y hy
    have hn : y.first ≠ b + total c1 := by omega
    simp [isC, hn]
  rw [this]
  simp [Codec.files, isC]

/-- Facts about the lengths used everywhere. -/
theorem live_len (first base : Nat) (chunks : List (List (Entry K))) (oc : Option (List (Entry K)))
    (h : Live first base chunks oc) : first ≤ base + (allOf chunks oc).length := by
  unfold Live at h
  unfold allOf
  cases chunks with
  | nil =>
    cases oc with
    | none => simp at h ⊢; omega
    | some es => simp at h ⊢; omega
  | cons x xs => simp at h ⊢; omega

theorem allOf_length (chunks : List (List (Entry K))) (oc : Option (List (Entry K))) :
    (allOf chunks oc).length = total chunks + (oc.getD []).length := by
  simp [allOf, total]

/-- `get_segment` and what its result holds. -/
theorem getSegment_spec (c : Codec K) (m : Mem) (d : Disk) (A : Arr K) (h : Rep c m d A) (i : Nat)
    (h1 : A.first ≤ i) (h2 : i - A.first < A.ents.length) :
    ∃ s es, getSegment m i = some s ∧ SegRep c s es ∧ d.file s = c.encodeAll es ∧ s.first ≤ i ∧
      ∃ hi : i - s.first < es.length, es[i - s.first] = A.ents[i - A.first] := by
  obtain ⟨base, chunks, oc, hg, hd, hb, hlive, hents, hm⟩ := h
  have hlen := live_len _ _ _ _ hlive
  have hal := allOf_length chunks oc
  have hel : A.ents.length = (allOf chunks oc).length - (A.first - base) := by rw [hents]; simp
  have hpos := hg.pos
  have hget : ∀ hj : i - base < (allOf chunks oc).length,
      A.ents[i - A.first] = (allOf chunks oc)[i - base] := by
    intro hj
    have : A.ents[i - A.first]? = (allOf chunks oc)[i - base]? := by
      rw [hents, List.getElem?_drop]; congr 1; omega
    rw [List.getElem?_eq_getElem h2, List.getElem?_eq_getElem hj] at this
    exact Option.some.inj this
  have hj : i - base < (allOf chunks oc).length := by omega
  have hget := hget hj
  unfold getSegment
  subst hm
  have n1 : ¬ (A.first = A.first + A.ents.length - 1 + 1) := by omega
  have n2 : ¬ (i < A.first ∨ i > A.first + A.ents.length - 1 + 1) := by omega
  have n3 : ¬ (i = A.first + A.ents.length - 1 + 1) := by omega
  simp only [if_neg n1, if_neg n2, if_neg n3]
  by_cases hopen : base + total chunks ≤ i
  · cases oc with
    | none => simp at hal; omega
    | some es =>
      have hfo : (c.segOf (base + total chunks) true es).first = base + total chunks := rfl
      simp only [Option.map_some, hfo, ge_iff_le, if_pos hopen]
      have hfits : ∀ e ∈ es, e.Fits c := fun e he => hg.fits e (by simp [allOf, he])
      refine ⟨_, es, rfl, segRep_segOf c _ true es (by omega) hfits, ?_, hopen, ?_⟩
      · subst hd
        simp [Disk.file, Codec.segOf, Codec.mkDisk]
      · simp at hal
        refine ⟨by rw [hfo]; omega, ?_⟩
        rw [hget]
        simp only [hfo, allOf, Option.getD_some]
        rw [List.getElem_append_right (by simp only [total] at hopen; omega)]
        congr 1
        simp only [total]; omega
  · obtain ⟨c1, x, c2, he, ha, hb2, hl⟩ := segs_find c base chunks hg.ne i (by omega) (by omega)
    have hfits : ∀ e ∈ x, e.Fits c := fun e hx => hg.fits e (by
      simp only [allOf, List.mem_append, List.mem_flatten]
      left; exact ⟨x, by rw [he]; simp, hx⟩)
    have hfo : (c.segOf (base + total c1) false x).first = base + total c1 := rfl
    refine ⟨c.segOf (base + total c1) false x, x, ?_, segRep_segOf c _ false x (by omega) hfits, ?_, ha, ?_⟩
    · cases oc with
      | none => exact hl
      | some es =>
        have hfo : (c.segOf (base + total chunks) true es).first = base + total chunks := rfl
        simp only [Option.map_some, hfo, ge_iff_le, if_neg hopen]
        exact hl
    · subst hd
      simp only [Disk.file, Codec.segOf, Codec.mkDisk, Bool.false_eq_true, if_false]
      rw [he, files_find c base c1 x c2 (by rw [← he]; exact hg.ne)]
      rfl
    · refine ⟨by rw [hfo]; omega, ?_⟩
      rw [hget]
      simp only [hfo]
      have : (allOf chunks oc)[i - base]? = x[i - (base + total c1)]? := by
        have hall : allOf chunks oc = c1.flatten ++ (x ++ (c2.flatten ++ oc.getD [])) := by
          simp [allOf, he]
        rw [hall, List.getElem?_append_right (by simp only [total] at ha; omega),
          List.getElem?_append_left (by simp only [total] at hb2 ha; omega)]
        congr 1
        simp only [total]; omega
      rw [List.getElem?_eq_getElem hj, List.getElem?_eq_getElem (by omega)] at this
      exact (Option.some.inj this).symm

theorem getSegment_out (c : Codec K) (m : Mem) (d : Disk) (A : Arr K) (h : Rep c m d A) (i : Nat)
    (h1 : i < A.first ∨ A.first + A.ents.length ≤ i) : getSegment m i = none := by
  obtain ⟨base, chunks, oc, hg, hd, hb, hlive, hents, hm⟩ := h
  have hpos := hg.pos
  subst hm
  unfold getSegment
  by_cases n1 : A.first = A.first + A.ents.length - 1 + 1
  · simp only [if_pos n1]
  · by_cases n2 : i < A.first ∨ i > A.first + A.ents.length - 1 + 1
    · simp only [if_neg n1, if_pos n2]
    · have n3 : i = A.first + A.ents.length - 1 + 1 := by omega
      simp only [if_neg n1, if_neg n2, if_pos n3]

theorem getEntry_rep (c : Codec K) (m : Mem) (d : Disk) (A : Arr K) (h : Rep c m d A) (i : Nat) :
    c.getEntry m d i = if A.first ≤ i then A.ents[i - A.first]? else none := by
  unfold Codec.getEntry
  by_cases hin : A.first ≤ i ∧ i - A.first < A.ents.length
  · obtain ⟨s, es, hs, hr, hf, hsi, hi, hv⟩ := getSegment_spec c m d A h i hin.1 hin.2
    rw [hs, if_pos hin.1, List.getElem?_eq_getElem hin.2]
    dsimp only
    rw [hf]
    have := get_spec c s es hr (i - s.first) hi
    rw [show s.first + (i - s.first) = i by omega] at this
    rw [this, hv]
  · rw [getSegment_out c m d A h i (by omega)]
    by_cases h1 : A.first ≤ i
    · rw [if_pos h1, List.getElem?_eq_none (by omega)]
    · rw [if_neg h1]

theorem getTerm_rep (c : Codec K) (m : Mem) (d : Disk) (A : Arr K) (h : Rep c m d A) (i : Nat) :
    getTermAt m i = if A.first ≤ i then ((A.ents[i - A.first]?).map Entry.term).getD 0 else 0 := by
  unfold getTermAt
  by_cases hin : A.first ≤ i ∧ i - A.first < A.ents.length
  · obtain ⟨s, es, hs, hr, hf, hsi, hi, hv⟩ := getSegment_spec c m d A h i hin.1 hin.2
    rw [hs, if_pos hin.1, List.getElem?_eq_getElem hin.2]
    dsimp only
    have := getTerm_spec c s es hr (i - s.first) hi
    rw [show s.first + (i - s.first) = i by omega] at this
    rw [this, hv]
    rfl
  · rw [getSegment_out c m d A h i (by omega)]
    by_cases h1 : A.first ≤ i
    · rw [if_pos h1, List.getElem?_eq_none (by omega)]; rfl
    · rw [if_neg h1]

end Braft.Store
