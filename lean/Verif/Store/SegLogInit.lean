import Verif.Store.SegLogSuffix
/- `SegmentLogStorage::init` on a directory left by a crash or a clean stop. -/
set_option linter.unusedVariables false
set_option linter.unusedSimpArgs false
set_option linter.unusedSectionVars false

namespace Braft.Store

variable {K : Type}

theorem listClosed_some (c : Codec K) (first : Nat) (cs : List (List (Entry K))) (hne : ∀ x ∈ cs, x ≠ [])
    (l : Nat) : listClosed first (some l) (c.files (l + 1) cs) = ([], some (c.files (l + 1) cs)) := by
  induction cs generalizing l with
  | nil => rfl
  | cons x xs ih =>
    have hx : 0 < x.length := List.length_pos_iff.mpr (hne x (List.mem_cons_self ..))
    have hnb : ¬ (l + 1 > l + 1 + x.length - 1) := by omega
    simp only [Codec.files, listClosed, if_neg hnb, ne_eq, not_true_eq_false, if_false]
    have := ih (fun y hy => hne y (List.mem_cons_of_mem _ hy)) (l + x.length)
    rw [show l + 1 + x.length - 1 = l + x.length by omega, show l + 1 + x.length = l + x.length + 1 by omega,
      this]
    rfl

theorem listClosed_none (c : Codec K) (first b : Nat) (cs : List (List (Entry K))) (hne : ∀ x ∈ cs, x ≠ [])
    (hpos : 1 ≤ b) (hb : b ≤ first) :
    ∃ c1 c2, cs = c1 ++ c2 ∧
      listClosed first none (c.files b cs) =
        ((c.segs b c1).map Seg.unlink, some (c.files (b + total c1) c2)) ∧
      b + total c1 ≤ first ∧ (∀ x xs, c2 = x :: xs → first < b + total c1 + x.length) := by
  induction cs generalizing b with
  | nil => exact ⟨[], [], rfl, rfl, by simpa [total_nil] using hb, by simp⟩
  | cons x xs ih =>
    have hx : 0 < x.length := List.length_pos_iff.mpr (hne x (List.mem_cons_self ..))
    have hnb : ¬ (b > b + x.length - 1) := by omega
    have hnh : ¬ (first < b) := by omega
    by_cases hd : first > b + x.length - 1
    · obtain ⟨c1, c2, h1, h2, h3, h4⟩ := ih (b + x.length) (fun y hy => hne y (List.mem_cons_of_mem _ hy))
        (by omega) (by omega)
      refine ⟨x :: c1, c2, by rw [h1]; rfl, ?_, by rw [total_cons]; omega, ?_⟩
      · simp only [Codec.files, listClosed, if_neg hnb, if_neg hnh, if_pos hd, h2, Codec.segs, List.map_cons]
        rw [total_cons, Nat.add_assoc]; rfl
      · intro y ys hy
        have := h4 y ys hy
        rw [total_cons]; omega
    · refine ⟨[], x :: xs, rfl, ?_, by simpa [total_nil] using hb, ?_⟩
      · simp only [Codec.files, listClosed, if_neg hnb, if_neg hnh, if_neg hd]
        have := listClosed_some c first xs (fun y hy => hne y (List.mem_cons_of_mem _ hy)) (b + x.length - 1)
        rw [show b + x.length - 1 + 1 = b + x.length by omega] at this
        rw [this]
        simp [Codec.segs, total_nil]
      · intro y ys hy
        simp at hy
        rw [total_nil, ← hy.1]; omega

theorem confsOf_append (i : Nat) (a b : List (Entry K)) :
    confsOf i (a ++ b) = confsOf i a ++ confsOf (i + a.length) b := by
  induction a generalizing i with
  | nil => simp [confsOf]
  | cons e es ih =>
    have hi : i + 1 + es.length = i + (es.length + 1) := by omega
    obtain ⟨t, bd⟩ := e
    cases bd <;> simp [confsOf, ih, hi]

theorem confsOf_mem (i : Nat) (a : List (Entry K)) (x : Nat × Nat × K) (hx : x ∈ confsOf i a) :
    i ≤ x.1 ∧ x.1 < i + a.length := by
  induction a generalizing i with
  | nil => simp [confsOf] at hx
  | cons e es ih =>
    obtain ⟨t, bd⟩ := e
    cases bd with
    | data d => have := ih (i + 1) (by simpa [confsOf] using hx); simp; omega
    | noop => have := ih (i + 1) (by simpa [confsOf] using hx); simp; omega
    | conf k =>
      simp only [confsOf, List.mem_cons] at hx
      rcases hx with hx | hx
      · subst hx; simp
      · have := ih (i + 1) hx; simp; omega

theorem loadClosed_files (c : Codec K) (recover : Bool) (cs : List (List (Entry K))) (b last : Nat)
    (hpos : 1 ≤ b) (hne : ∀ x ∈ cs, x ≠ []) (hf : ∀ x ∈ cs, ∀ e ∈ x, e.Fits c) :
    c.loadClosed recover last (c.files b cs) =
      some (c.segs b cs, confsOf b cs.flatten, [], if cs = [] then last else b + total cs - 1) := by
  induction cs generalizing b last with
  | nil => rfl
  | cons x xs ih =>
    have hx : 0 < x.length := List.length_pos_iff.mpr (hne x (List.mem_cons_self ..))
    obtain ⟨seg, h1, h2, h3, h4, h5⟩ := load_closed c recover b hpos (b + x.length - 1) 0 x
      (hf x (List.mem_cons_self ..)) (by omega)
    have hseg : seg = c.segOf b false x := by
      have := h2.eq_segOf
      rw [h3, h4] at this; exact this
    simp only [Codec.files, Codec.loadClosed, h1]
    rw [ih (b + x.length) seg.last (by omega) (fun y hy => hne y (List.mem_cons_of_mem _ hy))
      (fun y hy => hf y (List.mem_cons_of_mem _ hy))]
    simp only [ne_eq, not_true_eq_false, if_false, List.nil_append, List.flatten_cons, confsOf_append, hseg,
      Codec.segs, Option.some.injEq, Prod.mk.injEq, true_and]
    simp only [reduceCtorEq, if_false, total_cons]
    by_cases hxs : xs = []
    · subst hxs
      simp only [if_true, total_nil]
      show b + x.length - 1 = _
      omega
    · rw [if_neg hxs]; omega

theorem init_empty (c : Codec K) (recover : Bool) (d : Disk) (hd : d.metaIdx = none) :
    ∃ acts, c.init recover d = (acts, some (⟨1, 0, [], none⟩, [])) ∧
      applyAll d acts = ⟨some 1, [], []⟩ ∧
      (∀ d', Crash d' d acts → d'.metaIdx = none ∨ d' = ⟨some 1, [], []⟩) := by
  obtain ⟨mi, closed, opens⟩ := d
  simp only at hd
  subst hd
  have happ : applyAll ⟨none, closed, opens⟩ (closed.map (fun f => Act.rmClosed f.first f.last) ++
      opens.map (fun x => Act.rmOpen x.1) ++ [.saveMeta 1]) = ⟨some 1, [], []⟩ := by
    have h1 : ∀ (l cl : List CFile) (op : List (Nat × Bytes)),
        applyAll ⟨none, cl, op⟩ (l.map (fun f => Act.rmClosed f.first f.last)) =
          ⟨none, cl.filter (fun x => !l.any (fun f => isC f.first f.last x)), op⟩ := by
      intro l
      induction l with
      | nil =>
        intro cl op
        simp only [List.map_nil, applyAll_nil, List.any_nil, Bool.not_false]
        rw [List.filter_eq_self.mpr (by intros; rfl)]
      | cons f fs ih =>
        intro cl op
        simp only [List.map_cons, applyAll_cons, Act.apply]
        rw [ih, List.filter_filter]
        simp only [List.any_cons, Bool.not_or]
        congr 1
        apply List.filter_congr
        intro x _
        rw [Bool.and_comm]
    have h2 : ∀ (l op : List (Nat × Bytes)) (cl : List CFile),
        applyAll ⟨none, cl, op⟩ (l.map (fun x => Act.rmOpen x.1)) =
          ⟨none, cl, op.filter (fun x => !l.any (fun f => decide (x.1 = f.1)))⟩ := by
      intro l
      induction l with
      | nil =>
        intro cl op
        simp only [List.map_nil, applyAll_nil, List.any_nil, Bool.not_false]
        rw [List.filter_eq_self.mpr (by intros; rfl)]
      | cons f fs ih =>
        intro cl op
        simp only [List.map_cons, applyAll_cons, Act.apply]
        rw [ih, List.filter_filter]
        simp only [List.any_cons, Bool.not_or]
        congr 1
        apply List.filter_congr
        intro x _
        rw [Bool.and_comm]
    rw [applyAll_append, applyAll_append, h1, h2]
    have e1 : closed.filter (fun x => !closed.any (fun f => isC f.first f.last x)) = [] := by
      apply List.filter_eq_nil_iff.mpr
      intro x hx
      simp only [Bool.not_eq_true', Bool.not_eq_false, List.any_eq_true]
      exact ⟨x, hx, by simp [isC]⟩
    have e2 : opens.filter (fun x => !opens.any (fun f => decide (x.1 = f.1))) = [] := by
      apply List.filter_eq_nil_iff.mpr
      intro x hx
      simp only [Bool.not_eq_true', Bool.not_eq_false, List.any_eq_true]
      exact ⟨x, hx, by simp⟩
    rw [e1, e2]
    rfl
  refine ⟨_, rfl, happ, ?_⟩
  · intro d' hc
    have hkeep : ∀ (as : List Act) (d0 : Disk), (∀ a ∈ as, ∀ d, (Act.apply d a).metaIdx = d.metaIdx) →
        (∀ a ∈ as, ∀ d d', ¬ Partial d d' a) → d0.metaIdx = none → ∀ d', Crash d' d0 as → d'.metaIdx = none := by
      intro as
      induction as with
      | nil => intro d0 _ _ h d' hc; rw [show d' = d0 from hc]; exact h
      | cons a as ih =>
        intro d0 h1 h2 h d' hc
        rcases hc with hc | hc | hc
        · rw [hc]; exact h
        · exact ((h2 a (List.mem_cons_self ..) _ _) hc).elim
        · exact ih _ (fun x hx => h1 x (List.mem_cons_of_mem _ hx))
            (fun x hx => h2 x (List.mem_cons_of_mem _ hx)) (by rw [h1 a (List.mem_cons_self ..)]; exact h) d' hc
    have hall : ∀ a ∈ closed.map (fun f => Act.rmClosed f.first f.last) ++ opens.map (fun x => Act.rmOpen x.1),
        (∀ d, (Act.apply d a).metaIdx = d.metaIdx) ∧ (∀ d d', ¬ Partial d d' a) := by
      intro a ha
      rcases List.mem_append.mp ha with ha | ha
      · obtain ⟨f, _, rfl⟩ := List.mem_map.mp ha
        exact ⟨fun _ => rfl, fun _ _ h => h⟩
      · obtain ⟨f, _, rfl⟩ := List.mem_map.mp ha
        exact ⟨fun _ => rfl, fun _ _ h => h⟩
    have hk := hkeep _ ⟨none, closed, opens⟩ (fun a ha => (hall a ha).1) (fun a ha => (hall a ha).2) rfl
    rcases crash_append _ _ _ _ hc with hc | hc
    · exact Or.inl (hk d' hc)
    · rcases hc with hc | hc | hc
      · left; rw [hc]; exact hk _ (crash_done _ _)
      · exact hc.elim
      · right
        have hc' : d' = _ := hc
        rw [hc', ← happ, applyAll_append _ (_ ++ _)]; rfl

/-- Reopening a directory: the storage comes back with exactly the array, the configurations of its
entries are reported in order after perhaps some that lie before the first index, and a crash during
the recovery changes nothing. -/
theorem init_rep (c : Codec K) (recover : Bool) (d : Disk) (A : Arr K) (h : DiskRep c d A) :
    ∃ acts m stale, c.init recover d = (acts, some (m, stale ++ confsOf A.first A.ents)) ∧
      (∀ x ∈ stale, x.1 < A.first) ∧ Rep c m (applyAll d acts) A ∧
      (∀ d', Crash d' d acts → DiskRep c d' A) := by
  obtain ⟨base, chunks, oc, tail, hg, ht, hd, hb, hents⟩ := h
  have hpos := hg.pos
  subst hd
  obtain ⟨c1, c2, h1, h2, h3, h4⟩ := listClosed_none c A.first base chunks hg.ne hpos hb
  subst h1
  have hg2 : Good c (base + total c1) c2 oc := good_sub c base c1 c2 oc hg
  have hents2 : A.ents = (allOf c2 oc).drop (A.first - (base + total c1)) := by
    rw [hents, drop_front c1 c2 oc base A.first h3]
  have hfits2 : ∀ x ∈ c2, ∀ e ∈ x, e.Fits c := fun x hx e he => hg2.fits e (by
    simp only [allOf, List.mem_append, List.mem_flatten]
    exact Or.inl ⟨x, hx, he⟩)
  have hload := loadClosed_files c recover c2 (base + total c1) 0 (by omega) hg2.ne hfits2
  obtain ⟨hrm1, hrm2⟩ := rmFront c A.first c1 base c2 oc tail hg.ne
  have hDR : ∀ p q : List (List (Entry K)), c1 = p ++ q →
      DiskRep c (c.mkDisk A.first (base + total p) (q ++ c2) oc tail) A := by
    intro p q hpq
    have htp : base + total p ≤ A.first := by
      rw [hpq, total_append] at h3; omega
    refine diskRep_mk c A _ _ _ tail ?_ ht htp ?_
    · apply good_sub c base p (q ++ c2) oc; rw [← List.append_assoc, ← hpq]; exact hg
    · rw [hents, hpq, List.append_assoc, drop_front p (q ++ c2) oc base A.first htp]
  have hcr1 : ∀ d', Crash d' (c.mkDisk A.first base (c1 ++ c2) oc tail) ((c.segs base c1).map Seg.unlink) →
      DiskRep c d' A := by
    intro d' hc
    obtain ⟨p, q, hpq, hd'⟩ := hrm2 d' hc
    subst hd'; exact hDR p q hpq
  have hdr1 : DiskRep c (c.mkDisk A.first (base + total c1) c2 oc tail) A := by
    have := hDR c1 [] (by simp); rwa [List.nil_append] at this
  -- configurations: split at the first index
  have hconf : A.first ≤ base + total c1 + (allOf c2 oc).length →
      ∃ stale, confsOf (base + total c1) (allOf c2 oc) = stale ++ confsOf A.first A.ents ∧
        ∀ x ∈ stale, x.1 < A.first := by
    intro hle
    refine ⟨confsOf (base + total c1) ((allOf c2 oc).take (A.first - (base + total c1))), ?_, ?_⟩
    · have hs := (List.take_append_drop (A.first - (base + total c1)) (allOf c2 oc)).symm
      have := congrArg (confsOf (base + total c1)) hs
      rw [confsOf_append, ← hents2, List.length_take] at this
      rw [this]
      congr 2; omega
    · intro x hx
      have := (confsOf_mem _ _ _ hx).2
      rw [List.length_take] at this
      omega
  have hconf' : base + total c1 + (allOf c2 oc).length ≤ A.first →
      A.ents = [] ∧ ∀ x ∈ confsOf (base + total c1) (allOf c2 oc), x.1 < A.first := by
    intro hle
    refine ⟨?_, ?_⟩
    · rw [hents2]; apply List.drop_of_length_le; omega
    · intro x hx
      have := (confsOf_mem _ _ _ hx).2
      omega
  have hal := allOf_length c2 oc
  have hel : A.ents.length = (allOf c2 oc).length - (A.first - (base + total c1)) := by rw [hents2]; simp
  have hmeta : (c.mkDisk A.first base (c1 ++ c2) oc tail).metaIdx = some A.first := rfl
  have hclosed : (c.mkDisk A.first base (c1 ++ c2) oc tail).closed = c.files base (c1 ++ c2) := rfl
  cases oc with
  | none =>
    have hopens : (c.mkDisk A.first base (c1 ++ c2) none tail).opens = [] := rfl
    have hinit : c.init recover (c.mkDisk A.first base (c1 ++ c2) none tail) =
        ((c.segs base c1).map Seg.unlink,
          some (⟨A.first, if (if c2 = [] then 0 else base + total c1 + total c2 - 1) = 0 then A.first - 1
              else (if c2 = [] then 0 else base + total c1 + total c2 - 1),
              c.segs (base + total c1) c2, none⟩, confsOf (base + total c1) c2.flatten)) := by
      unfold Codec.init
      simp only [hmeta, hopens, hclosed, h2, hload, List.length_nil, List.append_nil]
      rw [if_neg (by omega)]
    have hall : allOf c2 none = c2.flatten := by simp [allOf]
    simp only [Option.getD_none, List.length_nil] at hal
    have hal0 : (allOf c2 none).length = total c2 := by omega
    cases hc2 : c2 with
    | nil =>
      subst hc2
      rw [total_nil] at hal0
      obtain ⟨he, hs⟩ := hconf' (by omega)
      refine ⟨_, ⟨A.first, A.first - 1, [], none⟩, confsOf (base + total c1) (allOf [] none), hinit.trans ?_, hs,
        ?_, hcr1⟩
      · rw [he, hall]; simp [confsOf, Codec.segs]
      · rw [hrm1]
        have hA : A = ⟨A.first, []⟩ := by rw [← he]
        conv => rhs; rw [hA]
        exact empty_rep c A.first (by omega) []
    | cons x xs =>
      rw [← hc2]
      have hreach := h4 x xs hc2
      have hc2ne : c2 ≠ [] := by rw [hc2]; simp
      have htc : total c2 = x.length + total xs := by rw [hc2, total_cons]
      obtain ⟨stale, hs1, hs2⟩ := hconf (by omega)
      refine ⟨_, ⟨A.first, base + total c1 + total c2 - 1, c.segs (base + total c1) c2, none⟩, stale,
        hinit.trans ?_, hs2, ?_, hcr1⟩
      · rw [← hs1, hall, if_neg hc2ne, if_neg (by omega)]
      · rw [hrm1]
        refine ⟨base + total c1, c2, none, hg2, rfl, h3, ?_, hents2, ?_⟩
        · rw [hc2]; simp [Live]; omega
        · simp only [Option.map_none, Mem.mk.injEq, and_true, true_and]
          omega
  | some es =>
    have hopens : (c.mkDisk A.first base (c1 ++ c2) (some es) tail).opens =
        [(base + total (c1 ++ c2), c.encodeAll es ++ tail)] := rfl
    have hfo : base + total (c1 ++ c2) = base + total c1 + total c2 := by rw [total_append, Nat.add_assoc]
    rw [hfo] at hopens
    simp only [Option.getD_some] at hal
    have hfits : ∀ e ∈ es, e.Fits c := fun e he => hg2.fits e (by simp [allOf, he])
    obtain ⟨seg, hl1, hl2, hl3, hl4⟩ := load_open c recover (base + total c1 + total c2) (by omega)
      (base + total c1 + total c2 - 1) 0 es hfits tail ht
    have hseg : seg = c.segOf (base + total c1 + total c2) true es := by
      have := hl2.eq_segOf
      rw [hl3, hl4] at this; exact this
    have hsl : seg.last = base + total c1 + total c2 + es.length - 1 := by rw [hseg]; rfl
    -- cutting the torn tail
    have hcut : ∃ acts', acts' = (if (c.encodeAll es).length ≠ (c.encodeAll es ++ tail).length then
          [Act.cut (base + total c1 + total c2) (c.encodeAll es).length] else []) ∧
        applyAll (c.mkDisk A.first (base + total c1) c2 (some es) tail) acts' =
          c.mkDisk A.first (base + total c1) c2 (some es) [] ∧
        (∀ d', Crash d' (c.mkDisk A.first (base + total c1) c2 (some es) tail) acts' → DiskRep c d' A) := by
      refine ⟨_, rfl, ?_⟩
      have hmc := mk_cut c A.first (base + total c1) c2 es tail es.length
      rw [List.take_length] at hmc
      by_cases htl : tail = []
      · subst htl
        rw [if_neg (by simp)]
        refine ⟨by simp [applyAll], ?_⟩
        intro d' hc
        rw [show d' = _ from hc]; exact hdr1
      · have := List.length_pos_iff.mpr htl
        rw [if_pos (by simp; exact htl)]
        refine ⟨by rw [applyAll_cons, applyAll_nil, hmc], ?_⟩
        intro d' hc
        rcases hc with hc | hc | hc
        · rw [hc]; exact hdr1
        · exact hc.elim
        · rw [show d' = _ from hc, hmc]
          exact diskRep_mk c A _ c2 (some es) [] hg2 (torn_nil c) h3 hents2
    obtain ⟨acts', ha1, ha2, ha3⟩ := hcut
    have hcs : confsOf (base + total c1) c2.flatten ++ confsOf (base + total c1 + total c2) es =
        confsOf (base + total c1) (allOf c2 (some es)) := by
      simp only [allOf, Option.getD_some, confsOf_append]; rfl
    have hnlt : ¬ ([(base + total c1 + total c2, c.encodeAll es ++ tail)].length > 1) := by simp
    have hcr2 : ∀ d', Crash d' (c.mkDisk A.first base (c1 ++ c2) (some es) tail)
        ((c.segs base c1).map Seg.unlink ++ acts') → DiskRep c d' A := by
      intro d' hc
      rcases crash_append _ _ _ _ hc with hc | hc
      · exact hcr1 d' hc
      · rw [hrm1] at hc; exact ha3 d' hc
    have happ2 : applyAll (c.mkDisk A.first base (c1 ++ c2) (some es) tail)
        ((c.segs base c1).map Seg.unlink ++ acts') = c.mkDisk A.first (base + total c1) c2 (some es) [] := by
      rw [applyAll_append, hrm1, ha2]
    by_cases hdisc : A.first > base + total c1 + total c2 + es.length - 1
    · have hc2 : c2 = [] := by
        cases hc2 : c2 with
        | nil => rfl
        | cons x xs =>
          have := h4 x xs hc2
          rw [hc2, total_cons] at hdisc
          omega
      obtain ⟨he, hs⟩ := hconf' (by omega)
      have hinit : c.init recover (c.mkDisk A.first base (c1 ++ c2) (some es) tail) =
          ((c.segs base c1).map Seg.unlink ++ acts' ++ [.rmOpen (base + total c1 + total c2)],
            some (⟨A.first, A.first - 1, [], none⟩, confsOf (base + total c1) (allOf c2 (some es)))) := by
        unfold Codec.init
        simp only [hmeta, hopens, hclosed, h2, hload, List.append_nil, if_neg hnlt, hl1, hsl, if_pos hdisc, hcs,
          ← ha1]
        subst hc2
        simp [Codec.segs]
      have hrmo := mk_rmOpen c A.first (base + total c1) c2 es []
      have hA : A = ⟨A.first, []⟩ := by rw [← he]
      have hfin : c.mkDisk A.first (base + total c1) c2 none [] = ⟨some A.first, [], []⟩ := by rw [hc2]; rfl
      have hre : Rep c ⟨A.first, A.first - 1, [], none⟩ ⟨some A.first, [], []⟩ A := by
        conv => rhs; rw [hA]
        exact empty_rep c A.first (by omega) []
      refine ⟨(c.segs base c1).map Seg.unlink ++ acts' ++ [.rmOpen (base + total c1 + total c2)],
        ⟨A.first, A.first - 1, [], none⟩, confsOf (base + total c1) (allOf c2 (some es)),
        hinit.trans ?_, hs, ?_, ?_⟩
      · rw [he]; simp [confsOf]
      · rw [applyAll_append, happ2, applyAll_cons, applyAll_nil, hrmo, hfin]
        exact hre
      · intro d' hc
        rcases crash_append _ _ _ _ hc with hc | hc
        · exact hcr2 d' hc
        · rw [happ2] at hc
          rcases hc with hc | hc | hc
          · rw [hc]; exact diskRep_mk c A _ c2 (some es) [] hg2 (torn_nil c) h3 hents2
          · exact hc.elim
          · rw [show d' = _ from hc, hrmo, hfin]; exact hre.disk
    · have hinit : c.init recover (c.mkDisk A.first base (c1 ++ c2) (some es) tail) =
          ((c.segs base c1).map Seg.unlink ++ acts',
            some (⟨A.first, base + total c1 + total c2 + es.length - 1, c.segs (base + total c1) c2,
              some (c.segOf (base + total c1 + total c2) true es)⟩,
              confsOf (base + total c1) (allOf c2 (some es)))) := by
        unfold Codec.init
        simp only [hmeta, hopens, hclosed, h2, hload, List.append_nil, if_neg hnlt, hl1, hsl, if_neg hdisc, hcs,
          ← ha1]
        rw [if_neg (by omega), hseg]
      obtain ⟨stale, hs1, hs2⟩ := hconf (by omega)
      refine ⟨(c.segs base c1).map Seg.unlink ++ acts', ⟨A.first, base + total c1 + total c2 + es.length - 1, c.segs (base + total c1) c2,
        some (c.segOf (base + total c1 + total c2) true es)⟩, stale, hinit.trans ?_, hs2, ?_, hcr2⟩
      · rw [← hs1]
      · rw [happ2]
        refine ⟨base + total c1, c2, some es, hg2, rfl, h3, ?_, hents2, ?_⟩
        · cases hc2 : c2 with
          | nil =>
            rw [hc2, total_nil] at hdisc
            simp [Live]; omega
          | cons x xs =>
            have := h4 x xs hc2
            simp [Live]; omega
        · simp only [Option.map_some, Mem.mk.injEq, and_true, true_and]
          omega

end Braft.Store
