import Verif.Store.SegLogTrunc
/- `truncate_suffix` of `SegmentLogStorage` on a represented storage. -/
set_option linter.unusedVariables false
set_option linter.unusedSimpArgs false
set_option linter.unusedSectionVars false

namespace Braft.Store

variable {K : Type}

/-- Induction from the back. -/
theorem snoc_cases {α : Type} (l : List α) : l = [] ∨ ∃ p x, l = p ++ [x] := by
  cases hl : l with
  | nil => exact Or.inl rfl
  | cons y ys =>
    right
    refine ⟨(y :: ys).dropLast, (y :: ys).getLast (by simp), ?_⟩
    rw [List.dropLast_concat_getLast]

theorem snoc_induction {α : Type} {P : List α → Prop} (h0 : P []) (h1 : ∀ p x, P p → P (p ++ [x]))
    (l : List α) : P l := by
  have : ∀ n (l : List α), l.length = n → P l := by
    intro n
    induction n with
    | zero => intro l hl; rw [List.eq_nil_of_length_eq_zero hl]; exact h0
    | succ n ih =>
      intro l hl
      rcases snoc_cases l with h | ⟨p, x, h⟩
      · subst h; simp at hl
      · subst h; exact h1 p x (ih p (by simp at hl; omega))
  exact this _ l rfl

theorem popBack_segs (c : Codec K) (kept b : Nat) (cs : List (List (Entry K))) (hne : ∀ x ∈ cs, x ≠ []) :
    ∃ c1 c2, cs = c1 ++ c2 ∧
      (c.segs b cs).reverse.takeWhile (fun s => decide (s.first > kept)) =
        (c.segs (b + total c1) c2).reverse ∧
      ((c.segs b cs).reverse.dropWhile (fun s => decide (s.first > kept))).reverse = c.segs b c1 ∧
      (c2 ≠ [] → kept < b + total c1) ∧ (∀ p x, c1 = p ++ [x] → b + total p ≤ kept) := by
  revert hne
  refine snoc_induction (P := fun cs => (∀ x ∈ cs, x ≠ []) → ∃ c1 c2, cs = c1 ++ c2 ∧
      (c.segs b cs).reverse.takeWhile (fun s => decide (s.first > kept)) =
        (c.segs (b + total c1) c2).reverse ∧
      ((c.segs b cs).reverse.dropWhile (fun s => decide (s.first > kept))).reverse = c.segs b c1 ∧
      (c2 ≠ [] → kept < b + total c1) ∧ (∀ p x, c1 = p ++ [x] → b + total p ≤ kept)) ?_ ?_ cs
  · intro _
    exact ⟨[], [], rfl, rfl, rfl, by simp, by simp⟩
  · intro ys x ih hne
    have hrev : (c.segs b (ys ++ [x])).reverse = c.segOf (b + total ys) false x :: (c.segs b ys).reverse := by
      rw [segs_append]; simp [Codec.segs]
    have hfst : (c.segOf (b + total ys) false x).first = b + total ys := rfl
    rw [hrev]
    by_cases hgt : b + total ys > kept
    · obtain ⟨c1, c2, h1, h2, h3, h4, h5⟩ := ih (fun y hy => hne y (List.mem_append_left _ hy))
      refine ⟨c1, c2 ++ [x], by rw [h1, List.append_assoc], ?_, ?_, ?_, h5⟩
      · simp only [List.takeWhile_cons, hfst, hgt, decide_true, if_true, h2]
        rw [segs_append, List.reverse_append]
        have : b + total c1 + total c2 = b + total ys := by rw [h1, total_append, Nat.add_assoc]
        rw [this]; simp [Codec.segs]
      · simp only [List.dropWhile_cons, hfst, hgt, decide_true, if_true, h3]
      · intro _
        by_cases hc2 : c2 = []
        · subst hc2; rw [List.append_nil] at h1; subst h1; exact hgt
        · exact h4 hc2
    · refine ⟨ys ++ [x], [], by simp, ?_, ?_, by simp, ?_⟩
      · simp only [List.takeWhile_cons, hfst, hgt, decide_false, Bool.false_eq_true, if_false]; rfl
      · simp only [List.dropWhile_cons, hfst, hgt, decide_false, Bool.false_eq_true, if_false]
        rw [segs_append]; simp [Codec.segs]
      · intro p y hpy
        have := List.append_inj' hpy rfl
        rw [← this.1]; omega

theorem rmBack (c : Codec K) (first b : Nat) (c1 c2 : List (List (Entry K)))
    (hne : ∀ x ∈ c1 ++ c2, x ≠ []) :
    applyAll (c.mkDisk first b (c1 ++ c2) none []) ((c.segs (b + total c1) c2).reverse.map Seg.unlink) =
      c.mkDisk first b c1 none [] ∧
    (∀ d', Crash d' (c.mkDisk first b (c1 ++ c2) none [])
        ((c.segs (b + total c1) c2).reverse.map Seg.unlink) →
      ∃ p q, c2 = p ++ q ∧ d' = c.mkDisk first b (c1 ++ p) none []) := by
  revert hne
  refine snoc_induction (P := fun c2 => (∀ x ∈ c1 ++ c2, x ≠ []) →
    applyAll (c.mkDisk first b (c1 ++ c2) none []) ((c.segs (b + total c1) c2).reverse.map Seg.unlink) =
      c.mkDisk first b c1 none [] ∧
    (∀ d', Crash d' (c.mkDisk first b (c1 ++ c2) none [])
        ((c.segs (b + total c1) c2).reverse.map Seg.unlink) →
      ∃ p q, c2 = p ++ q ∧ d' = c.mkDisk first b (c1 ++ p) none [])) ?_ ?_ c2
  · intro _
    refine ⟨by simp [Codec.segs, applyAll], ?_⟩
    intro d' hc
    exact ⟨[], [], rfl, by simpa using (show d' = _ from hc)⟩
  · intro ys x ih hne
    have hu : (c.segOf (b + total c1 + total ys) false x).unlink =
      .rmClosed (b + total (c1 ++ ys)) (b + total (c1 ++ ys) + x.length - 1) := by
      rw [total_append, ← Nat.add_assoc]; rfl
    have hrev : ((c.segs (b + total c1) (ys ++ [x])).reverse.map Seg.unlink) =
        .rmClosed (b + total (c1 ++ ys)) (b + total (c1 ++ ys) + x.length - 1) ::
          (c.segs (b + total c1) ys).reverse.map Seg.unlink := by
      rw [segs_append]; simp [Codec.segs, hu]
    have hrm := mk_rmLast c first b x (c1 ++ ys) [] (by rw [List.append_assoc]; exact hne)
    obtain ⟨h1, h2⟩ := ih (fun y hy => hne y (by
      rw [← List.append_assoc]; exact List.mem_append_left _ hy))
    rw [hrev, ← List.append_assoc]
    refine ⟨by rw [applyAll_cons, hrm, h1], ?_⟩
    intro d' hc
    rcases hc with hc | hc | hc
    · exact ⟨ys ++ [x], [], by simp, by rw [hc, List.append_assoc]⟩
    · exact hc.elim
    · rw [hrm] at hc
      obtain ⟨p, q, h3, h4⟩ := h2 d' hc
      exact ⟨p, q ++ [x], by rw [h3, List.append_assoc], h4⟩

/-- Entries of a shortened directory. -/
theorem take_of_prefix (l l' : List (Entry K)) (n : Nat) (h : l' <+: l) :
    l'.drop n = (l.drop n).take (l'.length - n) := by
  have : l' = l.take l'.length := (List.prefix_iff_eq_take.mp h)
  conv => lhs; rw [this]
  rw [List.drop_take]

/-- The spec of `truncate_suffix`. -/
def Arr.suffix (A : Arr K) (kept : Nat) : Arr K := ⟨A.first, A.ents.take (kept + 1 - A.first)⟩

theorem live_head_closed {first base : Nat} {x : List (Entry K)} {xs : List (List (Entry K))} {oc}
    (h : Live first base (x :: xs) oc) : first < base + x.length := by
  simpa [Live] using h

theorem truncateSuffix_rep (c : Codec K) (m : Mem) (d : Disk) (A : Arr K) (h : Rep c m d A) (kept : Nat)
    (hk1 : A.first ≤ kept + 1) (hk2 : kept + 1 ≤ A.first + A.ents.length) :
    Rep c (truncateSuffix m kept).1 (applyAll d (truncateSuffix m kept).2.1) (A.suffix kept) ∧
    (∀ d', Crash d' d (truncateSuffix m kept).2.1 →
      ∃ j, kept + 1 - A.first ≤ j ∧ DiskRep c d' ⟨A.first, A.ents.take j⟩) := by
  have hrep := h
  obtain ⟨base, chunks, oc, hg, hd, hb, hlive, hents, hm⟩ := h
  have hlen := live_len _ _ _ _ hlive
  have hal := allOf_length chunks oc
  have hel : A.ents.length = (allOf chunks oc).length - (A.first - base) := by rw [hents]; simp
  have hpos := hg.pos
  -- a directory with fewer entries at the end
  have hDR : ∀ (p : List (List (Entry K))) (o : Option (List (Entry K))), Good c base p o →
      allOf p o <+: allOf chunks oc → kept + 1 ≤ base + (allOf p o).length →
      ∃ j, kept + 1 - A.first ≤ j ∧ DiskRep c (c.mkDisk A.first base p o []) ⟨A.first, A.ents.take j⟩ := by
    intro p o hgp hpre hj
    refine ⟨(allOf p o).length - (A.first - base), by omega, ?_⟩
    refine diskRep_mk c ⟨A.first, A.ents.take ((allOf p o).length - (A.first - base))⟩ base p o [] hgp
      (torn_nil c) hb ?_
    show A.ents.take _ = (allOf p o).drop (A.first - base)
    rw [take_of_prefix _ _ _ hpre, ← hents]
  have hself : ∃ j, kept + 1 - A.first ≤ j ∧ DiskRep c d ⟨A.first, A.ents.take j⟩ := by
    refine ⟨A.ents.length, by omega, ?_⟩
    rw [List.take_length]; exact hrep.disk
  have hempty : kept + 1 = A.first → A.suffix kept = ⟨A.first, []⟩ := by
    intro hh; unfold Arr.suffix; rw [hh]; simp
  -- the two ways to reach the closed segments: with and without an open one popped before
  have viaClosed : ∀ (pre : List Seg), (base + total chunks > kept ∨ oc = none) →
      (applyAll d (pre.map Seg.unlink) = c.mkDisk A.first base chunks none []) →
      (∀ d', Crash d' d (pre.map Seg.unlink) →
        ∃ j, kept + 1 - A.first ≤ j ∧ DiskRep c d' ⟨A.first, A.ents.take j⟩) →
      popBack kept m =
        (match (((m.segs.reverse.dropWhile (fun s => decide (s.first > kept))).reverse).getLast?) with
          | some s => ({ m with
              last := kept
              segs := (m.segs.reverse.dropWhile (fun s => decide (s.first > kept))).reverse
              opn := none }, pre ++ m.segs.reverse.takeWhile (fun s => decide (s.first > kept)), some s)
          | none => (⟨kept + 1, kept, [], none⟩,
              pre ++ m.segs.reverse.takeWhile (fun s => decide (s.first > kept)), none)) →
      Rep c (truncateSuffix m kept).1 (applyAll d (truncateSuffix m kept).2.1) (A.suffix kept) ∧
      (∀ d', Crash d' d (truncateSuffix m kept).2.1 →
        ∃ j, kept + 1 - A.first ≤ j ∧ DiskRep c d' ⟨A.first, A.ents.take j⟩) := by
    intro pre hopn hpre hprec hpb
    obtain ⟨c1, c2, h1, h2, h3, h4, h5⟩ := popBack_segs c kept base chunks hg.ne
    have hms : m.segs = c.segs base chunks := by rw [hm]
    rw [hms, h2, h3] at hpb
    subst h1
    have htot : total (c1 ++ c2) = total c1 + total c2 := total_append c1 c2
    have hkeep' : kept + 1 ≤ base + total c1 := by
      by_cases hc2 : c2 = []
      · subst hc2
        rw [total_nil] at htot
        rcases hopn with ho | ho
        · omega
        · subst ho
          simp only [Option.getD_none, List.length_nil] at hal
          omega
      · have := h4 hc2; omega
    obtain ⟨hrm1, hrm2⟩ := rmBack c A.first base c1 c2 hg.ne
    have hgp : ∀ p q, c1 ++ c2 = p ++ q → Good c base p none := by
      intro p q hpq
      apply good_pre c base p q oc
      rw [← hpq]; exact hg
    have hpref : ∀ p q, c1 ++ c2 = p ++ q → allOf p none <+: allOf (c1 ++ c2) oc := by
      intro p q hpq
      rw [hpq]
      exact ⟨q.flatten ++ oc.getD [], by simp [allOf]⟩
    have happ : applyAll d ((pre ++ (c.segs (base + total c1) c2).reverse).map Seg.unlink) =
        c.mkDisk A.first base c1 none [] := by
      rw [List.map_append, applyAll_append, hpre, hrm1]
    have hcr : ∀ d', Crash d' d ((pre ++ (c.segs (base + total c1) c2).reverse).map Seg.unlink) →
        ∃ j, kept + 1 - A.first ≤ j ∧ DiskRep c d' ⟨A.first, A.ents.take j⟩ := by
      intro d' hc
      rw [List.map_append] at hc
      rcases crash_append _ _ _ _ hc with hc | hc
      · exact hprec d' hc
      · rw [hpre] at hc
        obtain ⟨p, q, hpq, hd'⟩ := hrm2 d' hc
        subst hd'
        refine hDR (c1 ++ p) none (hgp (c1 ++ p) q (by rw [hpq, List.append_assoc]))
          (hpref (c1 ++ p) q (by rw [hpq, List.append_assoc])) ?_
        have := allOf_length (c1 ++ p) (none : Option (List (Entry K)))
        rw [total_append] at this
        simp at this; omega
    rcases snoc_cases c1 with hc1 | ⟨p, x, hc1⟩
    · -- everything is removed
      subst hc1
      have hkb : kept + 1 = A.first := by
        rw [total_nil] at hkeep'; omega
      have hpb' : popBack kept m = (⟨kept + 1, kept, [], none⟩,
          pre ++ (c.segs (base + total ([] : List (List (Entry K)))) c2).reverse, none) := by
        rw [hpb]; rfl
      unfold truncateSuffix
      rw [hpb']
      dsimp only
      refine ⟨?_, hcr⟩
      rw [happ, hempty hkb, hkb]
      have hd0 : c.mkDisk A.first base ([] : List (List (Entry K))) none [] = ⟨some A.first, [], []⟩ := rfl
      rw [hd0]
      have : kept = A.first - 1 := by omega
      rw [this]
      exact empty_rep c A.first (by omega) []
    · subst hc1
      have hfx := h5 p x rfl
      have hlast : (c.segs base (p ++ [x])).getLast? = some (c.segOf (base + total p) false x) := by
        rw [segs_append]; simp [Codec.segs]
      have hpb' : popBack kept m = ({ m with
            last := kept
            segs := c.segs base (p ++ [x])
            opn := none },
          pre ++ (c.segs (base + total (p ++ [x])) c2).reverse, some (c.segOf (base + total p) false x)) := by
        rw [hpb, hlast]
      have hmf : m.first = A.first := by rw [hm]
      have hxne : x ≠ [] := hg.ne x (by simp)
      have hxl : 0 < x.length := List.length_pos_iff.mpr hxne
      have htp : total (p ++ [x]) = total p + x.length := by rw [total_append, total_one]
      have hg1 : Good c base (p ++ [x]) none := hgp (p ++ [x]) c2 rfl
      have hfits : ∀ e ∈ x, e.Fits c := fun e he => hg1.fits e (by simp [allOf, he])
      have hall1 := allOf_length (p ++ [x]) (none : Option (List (Entry K)))
      simp only [Option.getD_none, List.length_nil, Nat.add_zero, htp] at hall1
      unfold truncateSuffix
      rw [hpb']
      dsimp only
      rw [hmf]
      by_cases hle : A.first ≤ kept
      · rw [if_pos hle]
        have hlive1 : Live A.first base (p ++ [x]) none := by
          unfold Live at hlive ⊢
          cases p with
          | nil => simpa using hlive
          | cons y ys => simpa using hlive
        by_cases hfull : kept ≥ (c.segOf (base + total p) false x).last
        · -- nothing to cut
          have hl : (c.segOf (base + total p) false x).last = base + total p + x.length - 1 := rfl
          have htr : (c.segOf (base + total p) false x).truncate kept = none := by
            unfold Seg.truncate; rw [if_pos hfull]
          rw [htr]
          dsimp only
          refine ⟨?_, hcr⟩
          rw [happ]
          have hkx : kept + 1 = base + total p + x.length := by omega
          refine ⟨base, p ++ [x], none, hg1, rfl, hb, hlive1, ?_, ?_⟩
          · show A.ents.take (kept + 1 - A.first) = (allOf (p ++ [x]) none).drop (A.first - base)
            rw [take_of_prefix _ _ _ (hpref (p ++ [x]) c2 rfl), ← hents]
            congr 1; omega
          · simp only [Arr.suffix, List.length_take, Option.map_none, Mem.mk.injEq, and_true, true_and]
            omega
        · have hl : (c.segOf (base + total p) false x).last = base + total p + x.length - 1 := rfl
          have hsr := segRep_segOf c (base + total p) false x (by omega) hfits
          have hfst : (c.segOf (base + total p) false x).first = base + total p := rfl
          obtain ⟨s', hs1, hs2, hs3, hs4, hs5, hs6⟩ := truncate_spec c _ x hsr kept (by rw [hfst]; exact hfx)
            (by omega)
          rw [hfst] at hs1 hs2 hs4 hs6
          rw [hs1]
          have hopn : (c.segOf (base + total p) false x).isOpen = false := rfl
          simp only [hopn, Bool.false_eq_true, if_false, hfst, hl]
          have hs' : s' = c.segOf (base + total p) true (x.take (kept + 1 - (base + total p))) := by
            have := hs2.eq_segOf
            rw [hs3, hs4] at this; exact this
          have hreo := mk_reopen c A.first base p x (fun y hy => hg.ne y (by
            rw [List.append_assoc] at *
            simp only [List.mem_append] at hy ⊢
            rcases hy with hy | hy
            · exact Or.inl hy
            · exact Or.inr (Or.inl hy))) (base + total p + x.length - 1) rfl
          have hcut := mk_cut c A.first base p x [] (kept + 1 - (base + total p))
          have hgx : Good c base p (some x) := ⟨hg.pos, fun y hy => hg1.ne y (List.mem_append_left _ hy), by
            intro e he; apply hg1.fits; simpa [allOf] using he⟩
          have hgt : Good c base p (some (x.take (kept + 1 - (base + total p)))) :=
            ⟨hg.pos, fun y hy => hg1.ne y (List.mem_append_left _ hy), by
              intro e he
              apply hgx.fits
              simp only [allOf, Option.getD_some, List.mem_append] at he ⊢
              rcases he with he | he
              · exact Or.inl he
              · exact Or.inr (List.mem_of_mem_take he)⟩
          have hallx : allOf p (some x) = allOf (p ++ [x]) none := by simp [allOf]
          have hallt := allOf_length p (some (x.take (kept + 1 - (base + total p))))
          simp only [Option.getD_some, List.length_take] at hallt
          have hpreft : allOf p (some (x.take (kept + 1 - (base + total p)))) <+: allOf (p ++ [x] ++ c2) oc := by
            refine ⟨x.drop (kept + 1 - (base + total p)) ++ (c2.flatten ++ oc.getD []), ?_⟩
            simp only [allOf, Option.getD_some, List.flatten_append, List.flatten_cons, List.flatten_nil,
              List.append_nil, List.append_assoc]
            rw [← List.append_assoc (x.take _) (x.drop _), List.take_append_drop]
          refine ⟨?_, ?_⟩
          · rw [applyAll_append, happ, applyAll_cons, applyAll_cons, applyAll_nil, hreo, hcut]
            refine ⟨base, p, some (x.take (kept + 1 - (base + total p))), hgt, rfl, hb, ?_, ?_, ?_⟩
            · show Live A.first base _ _
              unfold Live at hlive1 ⊢
              cases p with
              | nil =>
                simp [total_nil] at hlive1 ⊢
                simp [total_nil] at hfx
                omega
              | cons y ys => simpa using hlive1
            · show A.ents.take (kept + 1 - A.first) = (allOf p _).drop (A.first - base)
              rw [take_of_prefix _ _ _ hpreft, ← hents]
              congr 1; omega
            · have hfil : (c.segs base (p ++ [x])).filter (fun y => !decide (y.first = base + total p)) =
                  c.segs base p := by
                rw [segs_append, List.filter_append]
                have h1 : (c.segs base p).filter (fun y => !decide (y.first = base + total p)) = c.segs base p := by
                  apply List.filter_eq_self.mpr
                  intro y hy
                  have := segs_mem c base p (fun y hy => hg1.ne y (List.mem_append_left _ hy)) y hy
                  have hn : y.first ≠ base + total p := by omega
                  simp [hn]
                rw [h1]
                have : (c.segOf (base + total p) false x).first = base + total p := rfl
                simp [Codec.segs, this]
              simp only [Arr.suffix, List.length_take, Option.map_some, Mem.mk.injEq, and_true, true_and,
                hfil, hs']
              omega
          · intro d' hc
            rcases crash_append _ _ _ _ hc with hc | hc
            · exact hcr d' hc
            · rw [happ] at hc
              rcases hc with hc | hc | hc | hc | hc
              · subst hc
                exact hDR (p ++ [x]) none hg1 (hpref _ c2 rfl) (by omega)
              · exact hc.elim
              · rw [hreo] at hc; subst hc
                refine hDR p (some x) hgx ?_ ?_
                · rw [hallx]; exact hpref _ c2 rfl
                · rw [hallx]; omega
              · exact hc.elim
              · have hc' : d' = _ := hc
                rw [hreo, hcut] at hc'; subst hc'
                exact hDR p _ hgt hpreft (by omega)
      · -- the whole segment lies before the first index: discarded
        rw [if_neg hle]
        have hkb : kept + 1 = A.first := by omega
        have hp : p = [] := by
          cases p with
          | nil => rfl
          | cons y ys =>
            exfalso
            have := live_head_closed hlive
            rw [total_cons] at hfx
            omega
        subst hp
        rw [List.nil_append] at *
        have hrml := mk_rmLast c A.first base x ([] : List (List (Entry K))) [] (by simpa using hxne)
        rw [total_nil, Nat.add_zero, List.nil_append] at hrml
        rw [total_nil, Nat.add_zero] at *
        have hu : (c.segOf base false x).unlink = .rmClosed base (base + x.length - 1) := rfl
        simp only [List.map_append, List.map_cons, List.map_nil, hu]
        rw [List.map_append] at happ hcr
        refine ⟨?_, ?_⟩
        · rw [applyAll_append, happ, applyAll_cons, applyAll_nil, hrml, hempty hkb]
          have hfil : (c.segs base [x]).filter (fun y => !decide (y.first = base)) = [] := by
            have : (c.segOf base false x).first = base := rfl
            simp [Codec.segs, this]
          have hfst : (c.segOf base false x).first = base := rfl
          rw [hfst, hfil]
          have hk : kept = A.first - 1 := by omega
          rw [hk]
          exact empty_rep c A.first (by omega) []
        · intro d' hc
          rcases crash_append _ _ _ _ hc with hc | hc
          · exact hcr d' hc
          · rw [happ] at hc
            rcases hc with hc | hc | hc
            · subst hc
              exact hDR [x] none hg1 (hpref _ c2 rfl) (by omega)
            · exact hc.elim
            · have hc' : d' = _ := hc
              rw [hrml] at hc'; subst hc'
              refine ⟨0, by omega, ?_⟩
              show DiskRep c ⟨some A.first, [], []⟩ ⟨A.first, A.ents.take 0⟩
              rw [List.take_zero]
              exact (empty_rep c A.first (by omega) []).disk
  cases oc with
  | none =>
    apply viaClosed [] (Or.inr rfl)
    · simpa [applyAll] using hd
    · intro d' hc
      have hc' : d' = d := hc
      subst hc'; exact hself
    · unfold popBack
      have : m.opn = none := by rw [hm]; rfl
      simp only [this, List.nil_append]
      generalize (List.dropWhile (fun s => decide (s.first > kept)) m.segs.reverse).reverse.getLast? = z
      cases z <;> rfl
  | some es =>
    have hopn : m.opn = some (c.segOf (base + total chunks) true es) := by rw [hm]; rfl
    have hfst : (c.segOf (base + total chunks) true es).first = base + total chunks := rfl
    have hio : (c.segOf (base + total chunks) true es).isOpen = true := rfl
    have hu : (c.segOf (base + total chunks) true es).unlink = .rmOpen (base + total chunks) := rfl
    have hrmo := mk_rmOpen c A.first base chunks es []
    simp only [Option.getD_some] at hal
    have hgn : Good c base chunks none := ⟨hg.pos, hg.ne, by
      intro e he; apply hg.fits; simp only [allOf, Option.getD_none, List.append_nil] at he
      simp only [allOf, List.mem_append]; exact Or.inl he⟩
    by_cases hfo : base + total chunks ≤ kept
    · have hpb : popBack kept m = ({ m with last := kept }, [], some (c.segOf (base + total chunks) true es)) := by
        unfold popBack
        simp only [hopn, hfst, if_pos hfo]
      have hmf : m.first = A.first := by rw [hm]
      have hfits : ∀ e ∈ es, e.Fits c := fun e he => hg.fits e (by simp [allOf, he])
      unfold truncateSuffix
      rw [hpb]
      dsimp only
      rw [hmf]
      by_cases hle : A.first ≤ kept
      · rw [if_pos hle]
        have hl : (c.segOf (base + total chunks) true es).last = base + total chunks + es.length - 1 := rfl
        by_cases hfull : kept ≥ (c.segOf (base + total chunks) true es).last
        · have htr : (c.segOf (base + total chunks) true es).truncate kept = none := by
            unfold Seg.truncate; rw [if_pos hfull]
          rw [htr]
          dsimp only
          have hkl : kept + 1 = A.first + A.ents.length := by omega
          have hsuf : A.suffix kept = A := by
            unfold Arr.suffix
            rw [hkl, Nat.add_sub_cancel_left, List.take_length]
          refine ⟨?_, ?_⟩
          · rw [hsuf]
            have : (⟨A.first, kept, m.segs, m.opn⟩ : Mem) = m := by
              have hml : m.last = A.first + A.ents.length - 1 := by rw [hm]
              have : kept = m.last := by omega
              rw [this, ← hmf]
            rw [this]
            simpa [applyAll] using hrep
          · intro d' hc
            have hc' : d' = d := hc
            subst hc'; exact hself
        · have hsr := segRep_segOf c (base + total chunks) true es (by omega) hfits
          obtain ⟨s', hs1, hs2, hs3, hs4, hs5, hs6⟩ := truncate_spec c _ es hsr kept (by rw [hfst]; exact hfo)
            (by omega)
          rw [hfst] at hs1 hs2 hs4 hs6
          rw [hs1]
          simp only [hio, if_true, hfst, List.map_nil, List.nil_append]
          have hs' : s' = c.segOf (base + total chunks) true (es.take (kept + 1 - (base + total chunks))) := by
            have := hs2.eq_segOf
            rw [hs3, hs4] at this; exact this
          have hcut := mk_cut c A.first base chunks es [] (kept + 1 - (base + total chunks))
          have hgt : Good c base chunks (some (es.take (kept + 1 - (base + total chunks)))) :=
            ⟨hg.pos, hg.ne, by
              intro e he
              apply hg.fits
              simp only [allOf, Option.getD_some, List.mem_append] at he ⊢
              rcases he with he | he
              · exact Or.inl he
              · exact Or.inr (List.mem_of_mem_take he)⟩
          have hallt := allOf_length chunks (some (es.take (kept + 1 - (base + total chunks))))
          simp only [Option.getD_some, List.length_take] at hallt
          have hpreft : allOf chunks (some (es.take (kept + 1 - (base + total chunks)))) <+:
              allOf chunks (some es) := by
            refine ⟨es.drop (kept + 1 - (base + total chunks)), ?_⟩
            simp only [allOf, Option.getD_some, List.append_assoc, List.take_append_drop]
          refine ⟨?_, ?_⟩
          · rw [hd, applyAll_cons, applyAll_nil, hcut]
            refine ⟨base, chunks, some (es.take (kept + 1 - (base + total chunks))), hgt, rfl, hb, ?_, ?_, ?_⟩
            · show Live A.first base _ _
              unfold Live at hlive ⊢
              cases chunks with
              | nil =>
                simp [total_nil] at hlive ⊢
                simp [total_nil] at hfo
                omega
              | cons y ys => simpa using hlive
            · show A.ents.take (kept + 1 - A.first) = (allOf chunks _).drop (A.first - base)
              rw [take_of_prefix _ _ _ hpreft, ← hents]
              congr 1; omega
            · have hms : m.segs = c.segs base chunks := by rw [hm]
              simp only [Arr.suffix, List.length_take, Option.map_some, Mem.mk.injEq, and_true, true_and,
                hs', hms]
              omega
          · intro d' hc
            rcases hc with hc | hc | hc
            · subst hc; exact hself
            · exact hc.elim
            · have hc' : d' = _ := hc
              rw [hd, hcut] at hc'; subst hc'
              exact hDR chunks _ hgt hpreft (by omega)
      · rw [if_neg hle]
        have hkb : kept + 1 = A.first := by omega
        have hch : chunks = [] := by
          cases chunks with
          | nil => rfl
          | cons y ys =>
            exfalso
            have := live_head_closed hlive
            rw [total_cons] at hfo
            omega
        subst hch
        simp only [List.nil_append, List.map_cons, List.map_nil, hu]
        have hms : m.segs = [] := by rw [hm]; rfl
        refine ⟨?_, ?_⟩
        · rw [hd, applyAll_cons, applyAll_nil, hrmo, hempty hkb, hms]
          have hk : kept = A.first - 1 := by omega
          rw [hk]
          exact empty_rep c A.first (by omega) []
        · intro d' hc
          rcases hc with hc | hc | hc
          · subst hc; exact hself
          · exact hc.elim
          · have hc' : d' = _ := hc
            rw [hd, hrmo] at hc'; subst hc'
            refine ⟨0, by omega, ?_⟩
            show DiskRep c ⟨some A.first, [], []⟩ ⟨A.first, A.ents.take 0⟩
            rw [List.take_zero]
            exact (empty_rep c A.first (by omega) []).disk
    · apply viaClosed [c.segOf (base + total chunks) true es] (Or.inl (by omega))
      · simp only [List.map_cons, List.map_nil, hu]
        rw [hd, applyAll_cons, applyAll_nil, hrmo]
      · intro d' hc
        simp only [List.map_cons, List.map_nil, hu] at hc
        rcases hc with hc | hc | hc
        · subst hc; exact hself
        · exact hc.elim
        · have hc' : d' = _ := hc
          rw [hd, hrmo] at hc'; subst hc'
          refine hDR chunks none hgn ?_ ?_
          · exact ⟨es, by simp [allOf]⟩
          · have := allOf_length chunks (none : Option (List (Entry K)))
            simp at this; omega
      · unfold popBack
        simp only [hopn, hfst, if_neg hfo]
        generalize (List.dropWhile (fun s => decide (s.first > kept)) m.segs.reverse).reverse.getLast? = z
        cases z <;> rfl

end Braft.Store
