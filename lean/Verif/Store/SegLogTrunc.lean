import Verif.Store.SegLogOps
/- Truncation and reset of `SegmentLogStorage` on a represented storage. -/
set_option linter.unusedVariables false
set_option linter.unusedSimpArgs false
set_option linter.unusedSectionVars false

namespace Braft.Store

variable {K : Type}

/-- The segments `pop_segments` removes. -/
theorem popFront_spec (c : Codec K) (kept b : Nat) (cs : List (List (Entry K))) (hne : ∀ x ∈ cs, x ≠ [])
    (hb : b ≤ kept) :
    ∃ c1 c2, cs = c1 ++ c2 ∧
      (c.segs b cs).takeWhile (fun s => decide (s.last < kept)) = c.segs b c1 ∧
      (c.segs b cs).dropWhile (fun s => decide (s.last < kept)) = c.segs (b + total c1) c2 ∧
      b + total c1 ≤ kept ∧ (∀ x xs, c2 = x :: xs → kept < b + total c1 + x.length) := by
  induction cs generalizing b with
  | nil => exact ⟨[], [], rfl, rfl, rfl, by simpa [total_nil] using hb, by simp⟩
  | cons x xs ih =>
    have hx : 0 < x.length := List.length_pos_iff.mpr (hne x (List.mem_cons_self ..))
    have hl : (c.segOf b false x).last = b + x.length - 1 := rfl
    by_cases hlt : b + x.length - 1 < kept
    · obtain ⟨c1, c2, h1, h2, h3, h4, h5⟩ := ih (b + x.length)
        (fun y hy => hne y (List.mem_cons_of_mem _ hy)) (by omega)
      refine ⟨x :: c1, c2, by rw [h1]; rfl, ?_, ?_, by rw [total_cons]; omega, ?_⟩
      · simp only [Codec.segs, List.takeWhile_cons, hl, hlt, decide_true, if_true, h2]
      · simp only [Codec.segs, List.dropWhile_cons, hl, hlt, decide_true, if_true, h3]
        rw [total_cons, Nat.add_assoc]
      · intro y ys hy
        have := h5 y ys hy
        rw [total_cons]; omega
    · refine ⟨[], x :: xs, rfl, ?_, ?_, by simpa [total_nil] using hb, ?_⟩
      · simp only [Codec.segs, List.takeWhile_cons, hl, hlt, decide_false, Bool.false_eq_true, if_false]
      · simp only [Codec.segs, List.dropWhile_cons, hl, hlt, decide_false, Bool.false_eq_true, if_false,
          total_nil, Nat.add_zero]
      · intro y ys hy
        simp at hy
        rw [total_nil, ← hy.1]; omega

/-- Removing leading segments one after the other. -/
theorem rmFront (c : Codec K) (first : Nat) (c1 : List (List (Entry K))) (b : Nat)
    (c2 : List (List (Entry K))) (oc tail) (hne : ∀ x ∈ c1 ++ c2, x ≠ []) :
    applyAll (c.mkDisk first b (c1 ++ c2) oc tail) ((c.segs b c1).map Seg.unlink) =
      c.mkDisk first (b + total c1) c2 oc tail ∧
    (∀ d', Crash d' (c.mkDisk first b (c1 ++ c2) oc tail) ((c.segs b c1).map Seg.unlink) →
      ∃ p q, c1 = p ++ q ∧ d' = c.mkDisk first (b + total p) (q ++ c2) oc tail) := by
  induction c1 generalizing b with
  | nil =>
    refine ⟨by simp [Codec.segs, applyAll, total_nil], ?_⟩
    intro d' hc
    exact ⟨[], [], rfl, by simpa [total_nil] using (show d' = _ from hc)⟩
  | cons x xs ih =>
    have hu : (c.segOf b false x).unlink = .rmClosed b (b + x.length - 1) := rfl
    have hrm := mk_rmHead c first b x (xs ++ c2) oc tail hne
    obtain ⟨h1, h2⟩ := ih (b + x.length) (fun y hy => hne y (List.mem_cons_of_mem _ hy))
    simp only [Codec.segs, List.map_cons, hu, List.cons_append, applyAll_cons]
    refine ⟨by rw [hrm, h1, total_cons, Nat.add_assoc], ?_⟩
    intro d' hc
    rcases hc with hc | hc | hc
    · exact ⟨[], x :: xs, rfl, by simpa [total_nil] using hc⟩
    · exact hc.elim
    · rw [hrm] at hc
      obtain ⟨p, q, h3, h4⟩ := h2 d' hc
      exact ⟨x :: p, q, by rw [h3]; rfl, by rw [h4, total_cons, Nat.add_assoc]⟩

theorem flatten_length (cs : List (List (Entry K))) : cs.flatten.length = total cs := rfl

/-- Dropping entries that lie before `first` anyway. -/
theorem drop_front (p : List (List (Entry K))) (q : List (List (Entry K))) (oc) (b first : Nat)
    (h : b + total p ≤ first) :
    (allOf (p ++ q) oc).drop (first - b) = (allOf q oc).drop (first - (b + total p)) := by
  have : allOf (p ++ q) oc = p.flatten ++ allOf q oc := by simp [allOf]
  rw [this, List.drop_append, List.drop_of_length_le (by rw [flatten_length]; omega), List.nil_append]
  congr 1
  rw [flatten_length]; omega

theorem good_sub (c : Codec K) (b : Nat) (p q : List (List (Entry K))) (oc) (h : Good c b (p ++ q) oc) :
    Good c (b + total p) q oc := by
  refine ⟨by have := h.pos; omega, fun x hx => h.ne x (List.mem_append_right _ hx), ?_⟩
  intro e he
  apply h.fits
  simp only [allOf, List.mem_append, List.flatten_append] at he ⊢
  rcases he with he | he
  · exact Or.inl (Or.inr he)
  · exact Or.inr he

theorem good_pre (c : Codec K) (b : Nat) (p q : List (List (Entry K))) (oc) (h : Good c b (p ++ q) oc) :
    Good c b p none := by
  refine ⟨h.pos, fun x hx => h.ne x (List.mem_append_left _ hx), ?_⟩
  intro e he
  apply h.fits
  simp only [allOf, List.mem_append, List.flatten_append, Option.getD_none, List.append_nil] at he ⊢
  exact Or.inl (Or.inl he)

/-- The spec of `truncate_prefix`. -/
def Arr.prefix (A : Arr K) (kept : Nat) : Arr K :=
  if kept ≤ A.first then A else ⟨kept, A.ents.drop (kept - A.first)⟩

theorem empty_rep (c : Codec K) (n : Nat) (hn : 1 ≤ n) (tail : Bytes) :
    Rep c ⟨n, n - 1, [], none⟩ ⟨some n, [], []⟩ (⟨n, []⟩ : Arr K) :=
  ⟨n, [], none, ⟨hn, by simp, by simp [allOf]⟩, rfl, Nat.le_refl _, rfl, by simp [allOf], by
    simp [Codec.segs]⟩

theorem truncatePrefix_rep (c : Codec K) (m : Mem) (d : Disk) (A : Arr K) (h : Rep c m d A) (kept : Nat) :
    Rep c (truncatePrefix m kept).1 (applyAll d (truncatePrefix m kept).2) (A.prefix kept) ∧
    (∀ d', Crash d' d (truncatePrefix m kept).2 → DiskRep c d' A ∨ DiskRep c d' (A.prefix kept)) := by
  have hrep := h
  obtain ⟨base, chunks, oc, hg, hd, hb, hlive, hents, hm⟩ := h
  have hlen := live_len _ _ _ _ hlive
  have hal := allOf_length chunks oc
  have hel : A.ents.length = (allOf chunks oc).length - (A.first - base) := by rw [hents]; simp
  have hpos := hg.pos
  have hmf : m.first = A.first := by rw [hm]
  unfold truncatePrefix Arr.prefix
  by_cases hk : m.first ≥ kept
  · rw [if_pos hk, if_pos (by omega)]
    refine ⟨by simpa [applyAll] using hrep, ?_⟩
    intro d' hc
    have hc' : d' = d := hc
    subst hc'; exact Or.inl hrep.disk
  · rw [if_neg hk, if_neg (by omega)]
    have hkf : A.first < kept := by omega
    dsimp only
    obtain ⟨c1, c2, h1, h2, h3, h4, h5⟩ := popFront_spec c kept base chunks hg.ne (by omega)
    subst h1
    subst hd
    have hne2 : ∀ x ∈ c2, x ≠ [] := fun x hx => hg.ne x (List.mem_append_right _ hx)
    -- the array after the call, seen from any base reached by the removal
    have hafter : ∀ p q : List (List (Entry K)), c1 = p ++ q →
        A.ents.drop (kept - A.first) = (allOf (q ++ c2) oc).drop (kept - (base + total p)) := by
      intro p q hpq
      have htp : base + total p ≤ kept := by
        rw [hpq, total_append] at h4; omega
      rw [hents, List.drop_drop, hpq, List.append_assoc,
        show A.first - base + (kept - A.first) = kept - base by omega, drop_front p (q ++ c2) oc base kept htp]
    have hDR : ∀ p q : List (List (Entry K)), c1 = p ++ q →
        DiskRep c (c.mkDisk kept (base + total p) (q ++ c2) oc []) ⟨kept, A.ents.drop (kept - A.first)⟩ := by
      intro p q hpq
      refine diskRep_mk c ⟨kept, _⟩ _ _ _ [] ?_ (torn_nil c) ?_ (hafter p q hpq)
      · apply good_sub c base p (q ++ c2) oc; rw [← List.append_assoc, ← hpq]; exact hg
      · show base + total p ≤ kept
        rw [hpq, total_append] at h4; omega
    obtain ⟨hrm1, hrm2⟩ := rmFront c kept c1 base c2 oc [] hg.ne
    -- crash states while the closed segments are removed
    have hcr1 : ∀ d', Crash d' (c.mkDisk A.first base (c1 ++ c2) oc [])
        (.saveMeta kept :: (c.segs base c1).map Seg.unlink) →
        DiskRep c d' A ∨ DiskRep c d' ⟨kept, A.ents.drop (kept - A.first)⟩ := by
      intro d' hc
      rcases hc with hc | hc | hc
      · left; subst hc; exact hrep.disk
      · exact hc.elim
      · right
        rw [mk_saveMeta] at hc
        obtain ⟨p, q, hpq, hd'⟩ := hrm2 d' hc
        subst hd'; exact hDR p q hpq
    have happ1 : applyAll (c.mkDisk A.first base (c1 ++ c2) oc [])
        (.saveMeta kept :: (c.segs base c1).map Seg.unlink) = c.mkDisk kept (base + total c1) c2 oc [] := by
      rw [applyAll_cons, mk_saveMeta, hrm1]
    have hafter1 := hafter c1 [] (by simp)
    rw [List.nil_append] at hafter1
    have hg2 : Good c (base + total c1) c2 oc := good_sub c base c1 c2 oc hg
    have hallc2 := allOf_length c2 oc
    have htot : total (c1 ++ c2) = total c1 + total c2 := total_append c1 c2
    have hlenA : (A.ents.drop (kept - A.first)).length = A.ents.length - (kept - A.first) := by simp
    cases c2 with
    | cons x xs =>
      have hreach := h5 x xs rfl
      have hps : popSegments kept m = ({ m with
          first := kept
          segs := c.segs (base + total c1) (x :: xs) }, c.segs base c1) := by
        unfold popSegments
        subst hm
        simp only [h2, h3]
        rfl
      rw [hps]
      simp only
      refine ⟨?_, hcr1⟩
      rw [happ1]
      refine ⟨base + total c1, x :: xs, oc, hg2, rfl, h4, ?_, hafter1, ?_⟩
      · simp [Live]; omega
      · subst hm
        rw [total_cons] at hallc2 htot
        have hl : A.first + A.ents.length - 1 =
            kept + (A.ents.drop (kept - A.first)).length - 1 := by
          omega
        simp only [← hl, htot, total_cons, Nat.add_assoc]
    | nil =>
      simp only [List.append_nil] at hm h2 h3 hal hel hlen hcr1 happ1 ⊢
      clear htot hallc2
      cases oc with
      | none =>
        have hps : popSegments kept m = (⟨kept, kept - 1, [], none⟩, c.segs base c1) := by
          unfold popSegments
          subst hm
          simp only [h2, h3]
          rfl
        rw [hps]
        simp only
        have hz : A.ents.drop (kept - A.first) = [] := by
          apply List.eq_nil_of_length_eq_zero
          simp only [Option.getD_none, List.length_nil] at hal
          omega
        refine ⟨?_, hcr1⟩
        rw [happ1, hz]
        exact empty_rep c kept (by omega) []
      | some es =>
        have hol : (c.segOf (base + total c1) true es).last = base + total c1 + es.length - 1 := rfl
        by_cases hlo : base + total c1 + es.length - 1 < kept
        · have hps : popSegments kept m = (⟨kept, kept - 1, [], none⟩,
              c.segs base c1 ++ [c.segOf (base + total c1) true es]) := by
            unfold popSegments
            subst hm
            simp only [h2, h3, Codec.segs, Option.map_some, hol, if_pos hlo]
          rw [hps]
          simp only [List.map_append, List.map_cons, List.map_nil]
          have hu : (c.segOf (base + total c1) true es).unlink = .rmOpen (base + total c1) := rfl
          rw [hu, ← List.cons_append]
          have hrmo := mk_rmOpen c kept (base + total c1) [] es []
          rw [total_nil, Nat.add_zero] at hrmo
          have hz : A.ents.drop (kept - A.first) = [] := by
            apply List.eq_nil_of_length_eq_zero
            simp only [Option.getD_some] at hal
            omega
          refine ⟨?_, ?_⟩
          · rw [applyAll_append, happ1, applyAll_cons, applyAll_nil, hrmo, hz]
            exact empty_rep c kept (by omega) []
          · intro d' hc
            rcases crash_append _ _ _ _ hc with hc | hc
            · exact hcr1 d' hc
            · right
              rw [happ1] at hc
              rcases hc with hc | hc | hc
              · subst hc
                have := hDR c1 [] (by simp)
                rwa [List.nil_append] at this
              · exact hc.elim
              · have hc' : d' = _ := hc
                rw [hrmo] at hc'
                subst hc'
                rw [hz]
                exact (empty_rep c kept (by omega) []).disk
        · have hps : popSegments kept m = ({ m with
              first := kept
              segs := [] }, c.segs base c1) := by
            unfold popSegments
            subst hm
            simp only [h2, h3, Codec.segs, Option.map_some, hol, if_neg hlo]
          rw [hps]
          simp only
          refine ⟨?_, hcr1⟩
          rw [happ1]
          refine ⟨base + total c1, [], some es, hg2, rfl, h4, ?_, hafter1, ?_⟩
          · simp [Live]; omega
          · subst hm
            simp only [Option.getD_some] at hal
            have hl : A.first + A.ents.length - 1 =
                kept + (A.ents.drop (kept - A.first)).length - 1 := by
              omega
            simp only [← hl, total_nil, Nat.add_zero, Codec.segs]

/-! ### reset -/

theorem resetLog_rep (c : Codec K) (m : Mem) (d : Disk) (A : Arr K) (h : Rep c m d A) (next : Nat)
    (hn : 1 ≤ next) :
    Rep c (resetLog m next).1 (applyAll d (resetLog m next).2) ⟨next, []⟩ ∧
    (A.first + A.ents.length ≤ next →
      ∀ d', Crash d' d (resetLog m next).2 → DiskRep c d' A ∨ DiskRep c d' ⟨next, []⟩) := by
  have hrep := h
  obtain ⟨base, chunks, oc, hg, hd, hb, hlive, hents, hm⟩ := h
  have hlen := live_len _ _ _ _ hlive
  have hal := allOf_length chunks oc
  have hel : A.ents.length = (allOf chunks oc).length - (A.first - base) := by rw [hents]; simp
  have hpos := hg.pos
  subst hd
  subst hm
  unfold resetLog
  simp only [List.map_append]
  have happ := rmFront c next chunks base [] oc [] (by simpa using hg.ne)
  rw [List.append_nil] at happ
  have hopen : applyAll (c.mkDisk next (base + total chunks) [] oc [])
      ((oc.map (c.segOf (base + total chunks) true)).toList.map Seg.unlink) = ⟨some next, [], []⟩ := by
    cases oc with
    | none => rfl
    | some es =>
      have hu : (c.segOf (base + total chunks) true es).unlink = .rmOpen (base + total chunks) := rfl
      have := mk_rmOpen c next (base + total chunks) [] es []
      rw [total_nil, Nat.add_zero] at this
      simp only [Option.map_some, Option.toList_some, List.map_cons, List.map_nil, hu, applyAll_cons,
        applyAll_nil, this]
      rfl
  refine ⟨?_, ?_⟩
  · rw [applyAll_cons, mk_saveMeta, applyAll_append, happ.1, hopen]
    exact empty_rep c next hn []
  · intro hnext d' hc
    have hDR : ∀ p q : List (List (Entry K)), chunks = p ++ q →
        DiskRep c (c.mkDisk next (base + total p) q oc []) (⟨next, []⟩ : Arr K) := by
      intro p q hpq
      have htp : total chunks = total p + total q := by rw [hpq, total_append]
      refine diskRep_mk c ⟨next, _⟩ _ _ _ [] ?_ (torn_nil c) ?_ ?_
      · apply good_sub c base p q oc; rw [← hpq]; exact hg
      · show base + total p ≤ next; omega
      · show [] = List.drop (next - (base + total p)) (allOf q oc)
        rw [List.drop_of_length_le]
        have := allOf_length q oc
        omega
    rcases hc with hc | hc | hc
    · left; subst hc; exact hrep.disk
    · exact hc.elim
    · right
      rw [mk_saveMeta] at hc
      rcases crash_append _ _ _ _ hc with hc | hc
      · obtain ⟨p, q, hpq, hd'⟩ := happ.2 d' hc
        rw [List.append_nil] at hd'
        subst hd'
        exact hDR p q hpq
      · rw [happ.1] at hc
        cases oc with
        | none =>
          have hc' : d' = _ := hc
          subst hc'
          exact hDR chunks [] (by simp)
        | some es =>
          rcases hc with hc | hc | hc
          · subst hc; exact hDR chunks [] (by simp)
          · exact hc.elim
          · have hc' : d' = applyAll (c.mkDisk next (base + total chunks) [] (some es) [])
              (((some es).map (c.segOf (base + total chunks) true)).toList.map Seg.unlink) := hc
            rw [hopen] at hc'
            subst hc'
            exact (empty_rep c next hn []).disk

end Braft.Store
