import Verif.Store.SegLogGet
/- The operations of `SegmentLogStorage` on a represented storage: result and crash states. -/
set_option linter.unusedVariables false
set_option linter.unusedSimpArgs false
set_option linter.unusedSectionVars false

namespace Braft.Store

variable {K : Type}

theorem torn_nil (c : Codec K) : Torn c [] := Or.inl rfl

theorem diskRep_mk (c : Codec K) (A : Arr K) (base : Nat) (chunks oc tail) (hg : Good c base chunks oc)
    (ht : Torn c tail) (hb : base ≤ A.first) (he : A.ents = (allOf chunks oc).drop (A.first - base)) :
    DiskRep c (c.mkDisk A.first base chunks oc tail) A := ⟨base, chunks, oc, tail, hg, ht, rfl, hb, he⟩

theorem Rep.disk {c : Codec K} {m : Mem} {d : Disk} {A : Arr K} (h : Rep c m d A) : DiskRep c d A := by
  obtain ⟨base, chunks, oc, hg, hd, hb, hlive, hents, hm⟩ := h
  exact ⟨base, chunks, oc, [], hg, torn_nil c, hd, hb, hents⟩

/-- A partial write of a record. -/
theorem diskRep_torn (c : Codec K) (A : Arr K) (base : Nat) (chunks es) (e : Entry K) (p : Bytes)
    (hg : Good c base chunks (some (es ++ [e]))) (hp : p <+: c.encode e) (hb : base ≤ A.first)
    (hlen : A.first ≤ base + (allOf chunks (some es)).length)
    (he : A.ents = (allOf chunks (some es)).drop (A.first - base)) :
    DiskRep c (c.mkDisk A.first base chunks (some es) p) A ∨
    DiskRep c (c.mkDisk A.first base chunks (some es) p) ⟨A.first, A.ents ++ [e]⟩ := by
  have hef : e.Fits c := hg.fits e (by simp [allOf])
  have hg' : Good c base chunks (some es) :=
    ⟨hg.pos, hg.ne, fun x hx => hg.fits x (by
      simp only [allOf, Option.getD_some, List.mem_append] at hx ⊢
      rcases hx with hx | hx
      · exact Or.inl hx
      · exact Or.inr (Or.inl hx))⟩
  by_cases hl : p.length < (c.encode e).length
  · left
    exact diskRep_mk c A base chunks (some es) p hg' (Or.inr ⟨e, hef, hp, hl⟩) hb he
  · right
    have : p = c.encode e := List.IsPrefix.eq_of_length_le hp (by omega)
    subst this
    rw [mk_write_entry]
    refine diskRep_mk c ⟨A.first, A.ents ++ [e]⟩ base chunks _ [] hg (torn_nil c) hb ?_
    show A.ents ++ [e] = _
    have : allOf chunks (some (es ++ [e])) = allOf chunks (some es) ++ [e] := by simp [allOf]
    rw [this, List.drop_append_of_le_length (by show A.first - base ≤ _; omega), he]

theorem append_step (c : Codec K) (maxSeg : Nat) (m : Mem) (d : Disk) (A : Arr K) (h : Rep c m d A)
    (e : Entry K) (hf : e.Fits c) :
    ∃ o', c.append (openSegment maxSeg m).1 (m.last + 1) e = some (o', c.encode e) ∧
      Rep c { m with segs := (openSegment maxSeg m).2.1, opn := some o', last := m.last + 1 }
        (applyAll d ((openSegment maxSeg m).2.2 ++ [.write o'.first (c.encode e)])) ⟨A.first, A.ents ++ [e]⟩ ∧
      (∀ d', Crash d' d ((openSegment maxSeg m).2.2 ++ [.write o'.first (c.encode e)]) →
        DiskRep c d' A ∨ DiskRep c d' ⟨A.first, A.ents ++ [e]⟩) := by
  obtain ⟨base, chunks, oc, hg, hd, hb, hlive, hents, hm⟩ := h
  have hlen := live_len _ _ _ _ hlive
  have hal := allOf_length chunks oc
  have hel : A.ents.length = (allOf chunks oc).length - (A.first - base) := by rw [hents]; simp
  have hpos := hg.pos
  subst hm
  subst hd
  -- the final step, common to all cases: the open segment holds `es`, the closed ones `cs`
  have final : ∀ (cs : List (List (Entry K))) (es : List (Entry K)), Good c base cs (some es) →
      allOf cs (some es) = allOf chunks oc → Live A.first base cs (some (es ++ [e])) →
      ∃ o', c.append (c.segOf (base + total cs) true es) (A.first + A.ents.length - 1 + 1) e =
          some (o', c.encode e) ∧
        Rep c ⟨A.first, A.first + A.ents.length - 1 + 1, c.segs base cs, some o'⟩
          (Act.apply (c.mkDisk A.first base cs (some es) []) (.write o'.first (c.encode e)))
          ⟨A.first, A.ents ++ [e]⟩ ∧
        o'.first = base + total cs ∧
        (∀ d', Crash d' (c.mkDisk A.first base cs (some es) []) [.write o'.first (c.encode e)] →
          DiskRep c d' A ∨ DiskRep c d' ⟨A.first, A.ents ++ [e]⟩) := by
    intro cs es hg' hall' hlive'
    have hal' := allOf_length cs (some es)
    rw [hall'] at hal'
    simp only [Option.getD_some] at hal'
    have hfits : ∀ x ∈ es, x.Fits c := fun x hx => hg'.fits x (by simp [allOf, hx])
    have hsr := segRep_segOf c (base + total cs) true es (by omega) hfits
    have hlast : (c.segOf (base + total cs) true es).last + 1 = A.first + A.ents.length - 1 + 1 := by
      show base + total cs + es.length - 1 + 1 = _
      omega
    obtain ⟨o', ha, hr, ho, hfirst, hl'⟩ := append_spec c _ es hsr rfl e hf
    rw [hlast] at ha
    have ho' : o' = c.segOf (base + total cs) true (es ++ [e]) := by
      have := hr.eq_segOf
      rw [ho, hfirst] at this
      exact this
    have hg'' : Good c base cs (some (es ++ [e])) := by
      refine ⟨hg'.pos, hg'.ne, ?_⟩
      intro x hx
      simp only [allOf, Option.getD_some, List.mem_append, List.mem_singleton] at hx
      rcases hx with hx | hx | hx
      · exact hg'.fits x (by simp only [allOf, List.mem_append]; exact Or.inl hx)
      · exact hfits x hx
      · subst hx; exact hf
    have hfo : o'.first = base + total cs := hfirst
    refine ⟨o', ha, ?_, hfo, ?_⟩
    · refine ⟨base, cs, some (es ++ [e]), hg'', ?_, hb, hlive', ?_, ?_⟩
      · rw [hfo, mk_write, mk_write_entry]
      · show A.ents ++ [e] = _
        have : allOf cs (some (es ++ [e])) = allOf cs (some es) ++ [e] := by simp [allOf]
        rw [this, hall', List.drop_append_of_le_length (by show A.first - base ≤ _; omega), ← hents]
      · rw [ho']
        simp only [Option.map_some, List.length_append, List.length_singleton]
        congr 1; omega
    · intro d' hc
      rw [hfo] at hc
      have hA : A.ents = (allOf cs (some es)).drop (A.first - base) := by rw [hall']; exact hents
      have hlen' : A.first ≤ base + (allOf cs (some es)).length := by rw [hall']; exact hlen
      rcases hc with hc | ⟨p, hp, hc⟩ | hc
      · left; subst hc
        exact diskRep_mk c A base cs (some es) [] hg' (torn_nil c) hb hA
      · rw [mk_write] at hc; subst hc
        exact diskRep_torn c A base cs es e p hg'' hp hb hlen' hA
      · have hc' : d' = _ := hc
        rw [mk_write] at hc'; subst hc'
        exact diskRep_torn c A base cs es e _ hg'' (List.prefix_refl _) hb hlen' hA
  cases oc with
  | none =>
    have hos : openSegment maxSeg (⟨A.first, A.first + A.ents.length - 1, c.segs base chunks,
        (none : Option (List (Entry K))).map (c.segOf (base + total chunks) true)⟩ : Mem) =
        (c.segOf (base + total chunks) true [], c.segs base chunks, [Act.create (base + total chunks)]) := by
      have hidx : A.first + A.ents.length - 1 + 1 = base + total chunks := by
        simp at hal; omega
      unfold openSegment
      simp only [Option.map_none, Option.getD_none, Option.isNone_none, if_true, newSeg, hidx]
      rw [if_neg (by omega)]
      congr 1
    rw [hos]
    have hg' : Good c base chunks (some []) := ⟨hg.pos, hg.ne, by
      intro x hx; apply hg.fits; simpa [allOf] using hx⟩
    have hall' : allOf chunks (some []) = allOf chunks none := rfl
    have hl' : Live A.first base chunks (some ([] ++ [e])) := by
      unfold Live at hlive ⊢
      cases chunks with
      | nil => simp at hlive ⊢; omega
      | cons x xs => simpa using hlive
    obtain ⟨o', ha, hr, hfo, hcr⟩ := final chunks [] hg' hall' hl'
    refine ⟨o', ha, ?_, ?_⟩
    · show Rep c _ (applyAll (c.mkDisk A.first base chunks none [])
        ([Act.create (base + total chunks)] ++ [.write o'.first (c.encode e)])) _
      rw [applyAll_append]
      simp only [applyAll_cons, applyAll_nil]
      rw [mk_create]
      exact hr
    · intro d' hc
      rcases crash_append _ _ _ _ hc with hc | hc
      · rcases hc with hc | hc | hc
        · left; subst hc; exact diskRep_mk c A base chunks none [] hg (torn_nil c) hb hents
        · exact hc.elim
        · left
          have hc' : d' = _ := hc
          rw [mk_create] at hc'; subst hc'
          exact diskRep_mk c A base chunks (some []) [] hg' (torn_nil c) hb hents
      · simp only [applyAll_cons, applyAll_nil] at hc
        rw [mk_create] at hc
        exact hcr d' hc
  | some es =>
    by_cases hroll : (c.encodeAll es).length > maxSeg
    · have hes : es ≠ [] := by
        intro hh; subst hh; simp [Codec.encodeAll] at hroll
      have hesl : 0 < es.length := List.length_pos_iff.mpr hes
      have hidx : A.first + A.ents.length - 1 + 1 = base + total chunks + es.length := by
        simp at hal; omega
      have hne' : ∀ y ∈ chunks ++ [es], y ≠ [] := by
        intro y hy
        rcases List.mem_append.mp hy with hy | hy
        · exact hg.ne y hy
        · simp at hy; subst hy; exact hes
      have hos : openSegment maxSeg (⟨A.first, A.first + A.ents.length - 1, c.segs base chunks,
          (some es : Option (List (Entry K))).map (c.segOf (base + total chunks) true)⟩ : Mem) =
          (c.segOf (base + total (chunks ++ [es])) true [], c.segs base (chunks ++ [es]),
            [Act.close (base + total chunks) (base + total chunks + es.length - 1),
             Act.create (base + total (chunks ++ [es]))]) := by
        unfold openSegment
        simp only [Option.map_some, Option.getD_some, Option.isNone_some, newSeg, hidx]
        rw [if_pos (show (c.segOf (base + total chunks) true es).bytes > maxSeg from hroll)]
        have ht : base + total (chunks ++ [es]) = base + total chunks + es.length := by
          rw [total_append, total_one, Nat.add_assoc]
        rw [ht, segs_append, insertS_end]
        · rfl
        · intro y hy
          exact (segs_mem c base chunks hg.ne y hy).2
      rw [hos]
      have hg1 : Good c base (chunks ++ [es]) none := ⟨hg.pos, hne', by
        intro x hx; apply hg.fits; simpa [allOf] using hx⟩
      have hg' : Good c base (chunks ++ [es]) (some []) := ⟨hg.pos, hne', by
        intro x hx; apply hg.fits; simpa [allOf] using hx⟩
      have hall1 : allOf (chunks ++ [es]) none = allOf chunks (some es) := by simp [allOf]
      have hall' : allOf (chunks ++ [es]) (some []) = allOf chunks (some es) := by simp [allOf]
      have hl' : Live A.first base (chunks ++ [es]) (some ([] ++ [e])) := by
        unfold Live at hlive ⊢
        cases chunks with
        | nil => simpa using hlive
        | cons x xs => simpa using hlive
      obtain ⟨o', ha, hr, hfo, hcr⟩ := final (chunks ++ [es]) [] hg' hall' hl'
      have hclose := mk_close c A.first base chunks es hg.ne (base + total chunks + es.length - 1) rfl
      refine ⟨o', ha, ?_, ?_⟩
      · show Rep c _ (applyAll (c.mkDisk A.first base chunks (some es) [])
          ([Act.close (base + total chunks) (base + total chunks + es.length - 1),
             Act.create (base + total (chunks ++ [es]))] ++ [.write o'.first (c.encode e)])) _
        rw [applyAll_append]
        simp only [applyAll_cons, applyAll_nil]
        rw [hclose, mk_create]
        exact hr
      · intro d' hc
        rcases crash_append _ _ _ _ hc with hc | hc
        · left
          rcases hc with hc | hc | hc | hc | hc
          · subst hc; exact diskRep_mk c A base chunks (some es) [] hg (torn_nil c) hb hents
          · exact hc.elim
          · rw [hclose] at hc; subst hc
            exact diskRep_mk c A base (chunks ++ [es]) none [] hg1 (torn_nil c) hb (by rw [hall1]; exact hents)
          · exact hc.elim
          · have hc' : d' = _ := hc
            rw [hclose, mk_create] at hc'; subst hc'
            exact diskRep_mk c A base (chunks ++ [es]) (some []) [] hg' (torn_nil c) hb
              (by rw [hall']; exact hents)
        · simp only [applyAll_cons, applyAll_nil] at hc
          rw [hclose, mk_create] at hc
          exact hcr d' hc
    · have hos : openSegment maxSeg (⟨A.first, A.first + A.ents.length - 1, c.segs base chunks,
          (some es : Option (List (Entry K))).map (c.segOf (base + total chunks) true)⟩ : Mem) =
          (c.segOf (base + total chunks) true es, c.segs base chunks, []) := by
        unfold openSegment
        simp only [Option.map_some, Option.getD_some, Option.isNone_some]
        rw [if_neg (show ¬ (c.segOf (base + total chunks) true es).bytes > maxSeg from hroll)]
        simp
      rw [hos]
      have hl' : Live A.first base chunks (some (es ++ [e])) := by
        unfold Live at hlive ⊢
        cases chunks with
        | nil => simp at hlive ⊢; omega
        | cons x xs => simpa using hlive
      obtain ⟨o', ha, hr, hfo, hcr⟩ := final chunks es hg rfl hl'
      exact ⟨o', ha, hr, hcr⟩

/-- `append_entries`: all entries are appended, and a crash leaves a prefix of them. -/
theorem appendLoop_rep (c : Codec K) (maxSeg : Nat) (es : List (Entry K)) (m : Mem) (d : Disk) (A : Arr K)
    (h : Rep c m d A) (hf : ∀ e ∈ es, e.Fits c) :
    Rep c (c.appendLoop maxSeg m es).1 (applyAll d (c.appendLoop maxSeg m es).2.1) ⟨A.first, A.ents ++ es⟩ ∧
    (c.appendLoop maxSeg m es).2.2 = es.length ∧
    (∀ d', Crash d' d (c.appendLoop maxSeg m es).2.1 →
      ∃ j, j ≤ es.length ∧ DiskRep c d' ⟨A.first, A.ents ++ es.take j⟩) := by
  induction es generalizing m d A with
  | nil =>
    refine ⟨by simpa [Codec.appendLoop, applyAll] using h, rfl, ?_⟩
    intro d' hc
    have hc' : d' = d := hc
    subst hc'
    exact ⟨0, by simp, by simpa using h.disk⟩
  | cons e es ih =>
    obtain ⟨o', ha, hr, hcr⟩ := append_step c maxSeg m d A h e (hf e (List.mem_cons_self ..))
    have hstep : c.appendLoop maxSeg m (e :: es) =
        ((c.appendLoop maxSeg { m with segs := (openSegment maxSeg m).2.1, opn := some o', last := m.last + 1 } es).1,
         ((openSegment maxSeg m).2.2 ++ [.write o'.first (c.encode e)]) ++
          (c.appendLoop maxSeg { m with segs := (openSegment maxSeg m).2.1, opn := some o', last := m.last + 1 } es).2.1,
         (c.appendLoop maxSeg { m with segs := (openSegment maxSeg m).2.1, opn := some o', last := m.last + 1 } es).2.2 + 1) := by
      rw [Codec.appendLoop]
      simp only [ha]
      simp
    obtain ⟨ih1, ih2, ih3⟩ := ih _ _ _ hr (fun x hx => hf x (List.mem_cons_of_mem _ hx))
    rw [hstep]
    refine ⟨?_, by simp [ih2], ?_⟩
    · rw [applyAll_append]
      simpa using ih1
    · intro d' hc
      rcases crash_append _ _ _ _ hc with hc | hc
      · rcases hcr d' hc with hc | hc
        · exact ⟨0, by simp, by simpa using hc⟩
        · exact ⟨1, by simp, by simpa using hc⟩
      · obtain ⟨j, hj, hd⟩ := ih3 d' hc
        exact ⟨j + 1, by simpa using hj, by simpa using hd⟩

end Braft.Store
