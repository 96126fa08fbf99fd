import Verif.Raft.Inv
/-
Logs built by leaders, and what a snapshot does to a log: `snapMerge`.
-/
set_option linter.unusedVariables false
set_option linter.unusedSimpArgs false
set_option linter.unusedSectionVars false

namespace Braft.Raft
variable {N D : Type} [DecidableEq N] [DecidableEq D]

/-! ### Logs -/

theorem GoodAt.pref {c0 : Conf N} {g : Glob N D} (hg : GBase c0 g) {t : Nat} {W W' : Log N D}
    (h : GoodAt g t W) (hp : W' <+: W) : GoodAt g t W' := by
  refine ⟨fun K h1 h2 => h.1 K h1 (h2.trans hp), ?_⟩
  by_cases hW : W = []
  · subst hW; rw [List.prefix_nil.mp hp]; exact h.2
  · exact Nat.le_trans (hg.mono W (h.1 W hW (List.prefix_refl _)) W' hp) h.2

theorem good_of_created {c0 : Conf N} {g : Glob N D} (hg : GBase c0 g) {L : Log N D}
    (h : L ∈ g.created) : GoodAt g (lastTerm L) L := ⟨hg.closed L h, Nat.le_refl _⟩

theorem GoodAt.nil (g : Glob N D) (t : Nat) : GoodAt g t [] :=
  ⟨fun K h1 h2 => absurd (List.prefix_nil.mp h2) h1, Nat.zero_le _⟩

/-- Two good logs of the same length and last term are equal. -/
theorem good_eq {c0 : Conf N} {g : Glob N D} (hg : GBase c0 g) {A B : Log N D}
    (hA : Good g A) (hB : Good g B) (hl : A.length = B.length) (ht : lastTerm A = lastTerm B) :
    A = B := by
  by_cases h : A = []
  · subst h
    exact (List.length_eq_zero_iff.mp hl.symm).symm
  · have h' : B ≠ [] := by
      intro hb; subst hb; exact h (List.length_eq_zero_iff.mp hl)
    rcases hg.chain A (hA A h (List.prefix_refl _)) B (hB B h' (List.prefix_refl _)) ht with hp | hp
    · exact hp.eq_of_length hl
    · exact (hp.eq_of_length hl.symm).symm

theorem termAt_take {l : Log N D} {k : Nat} (h : k ≤ l.length) :
    termAt l k = lastTerm (l.take k) := by
  unfold termAt
  by_cases hk : k = 0
  · subst hk; simp [lastTerm]
  · rw [if_neg hk]
    unfold lastTerm
    rw [List.getLast?_take]
    rw [if_neg hk]
    have hlt : k - 1 < l.length := by omega
    simp [List.getElem?_eq_getElem hlt]

theorem prefix_take {A W : Log N D} (h : A <+: W) : A = W.take A.length :=
  List.prefix_iff_eq_take.mp h

theorem take_pref_of {A W : Log N D} {k : Nat} (h : A <+: W) (hk : k ≤ A.length) :
    W.take k = A.take k := by
  obtain ⟨t, rfl⟩ := h
  rw [List.take_append_of_le_length hk]

theorem idLe_iff (a b : Nat × Nat) :
    idLe a b = true ↔ a.1 < b.1 ∨ (a.1 = b.1 ∧ a.2 ≤ b.2) := by
  unfold idLe
  by_cases h : a.1 = b.1
  · rw [if_pos h]; simp [h]
  · rw [if_neg h]; simp [h]

theorem idle_pref {c0 : Conf N} {g : Glob N D} (hg : GBase c0 g) {W O K : Log N D}
    (hW : Good g W) (hO : Good g O) (hle : idLe (lastId W) (lastId O) = true) (hK : K ≠ [])
    (hp : K <+: W) : K <+: O ∨ Culprit g.elections K := by
  replace hle : lastTerm W < lastTerm O ∨ (lastTerm W = lastTerm O ∧ W.length ≤ O.length) :=
    (idLe_iff _ _).mp hle
  have hWne : W ≠ [] := by
    intro h; subst h; exact hK (List.prefix_nil.mp hp)
  have hWl : 0 < W.length := List.length_pos_iff.mpr hWne
  have hWc := hW W hWne (List.prefix_refl _)
  have hOne : O ≠ [] := by
    intro h; subst h
    have h0 : lastTerm ([] : Log N D) = 0 := rfl
    rw [h0] at hle
    simp only [List.length_nil] at hle
    omega
  have hOc := hO O hOne (List.prefix_refl _)
  have hmk := hg.mono W hWc K hp
  rcases hle with hlt | ⟨ht, hlen⟩
  · obtain ⟨r, hr, ho⟩ := hg.origin O hOc
    by_cases hkr : K <+: r.log
    · exact Or.inl (hkr.trans ho.pref)
    · right
      exact ⟨r, hr, by rw [← ho.term]; omega, hkr⟩
  · left
    rcases hg.chain W hWc O hOc ht with h | h
    · exact hp.trans h
    · rw [h.eq_of_length_le hlen]; exact hp

/-! ### Committed prefixes -/

theorem GoodAt.mono {g : Glob N D} {t t' : Nat} {W : Log N D} (h : GoodAt g t W) (ht : t ≤ t') :
    GoodAt g t' W := ⟨h.1, Nat.le_trans h.2 ht⟩

theorem created_pos {c0 : Conf N} {g : Glob N D} (hg : GBase c0 g) {L : Log N D}
    (h : L ∈ g.created) : 0 < lastTerm L := by
  obtain ⟨r, hr, ho⟩ := hg.origin L h
  have := hg.elt r hr
  rw [ho.term]; omega

theorem Committed.good {c0 : Conf N} {g : Glob N D} (hg : GBase c0 g) {u : Nat} {X : Log N D}
    (h : Committed g u X) : GoodAt g u X := by
  rcases h with rfl | ⟨K, h1, h2, h3⟩
  · exact GoodAt.nil g u
  · exact ((good_of_created hg (hg.com K h1).1).pref hg h3).mono h2

/-- Two committed prefixes are comparable. -/
theorem GBase.comm_total {c0 : Conf N} {g : Glob N D} (hg : GBase c0 g) {X Y : Log N D}
    {u v : Nat} (hX : Committed g u X) (hY : Committed g v Y) : X <+: Y ∨ Y <+: X := by
  rcases hX with rfl | ⟨K1, h1, _, p1⟩
  · exact Or.inl List.nil_prefix
  · rcases hY with rfl | ⟨K2, h2, _, p2⟩
    · exact Or.inr List.nil_prefix
    · obtain ⟨_, D1, d1, _, q1⟩ := hg.com K1 h1
      obtain ⟨_, D2, d2, _, q2⟩ := hg.com K2 h2
      rcases direct_total hg.core d1 d2 with h | h
      · exact pref_total ((p1.trans q1).trans h) (p2.trans q2)
      · exact pref_total (p1.trans q1) ((p2.trans q2).trans h)

/-! ### Snapshots -/

theorem termAt_beyond {l : Log N D} {k : Nat} (h : l.length < k) : termAt l k = 0 := by
  unfold termAt
  rw [if_neg (by omega), List.getElem?_eq_none (by omega)]

theorem termAt_pref {K l : Log N D} (h : K <+: l) : termAt l K.length = lastTerm K := by
  rw [termAt_take h.length_le, ← prefix_take h]

/-- The log keeps its entries exactly when it holds the snapshot's. -/
theorem term_iff_pref {c0 : Conf N} {g : Glob N D} (hg : GBase c0 g) {K l : Log N D}
    (hK : Good g K) (hl : Good g l) : termAt l K.length = lastTerm K ↔ K <+: l := by
  constructor
  · intro h
    by_cases hne : K = []
    · subst hne; exact List.nil_prefix
    · rcases Nat.lt_or_ge l.length K.length with hlt | hge
      · rw [termAt_beyond hlt] at h
        have := created_pos hg (hK K hne (List.prefix_refl _))
        omega
      · rw [termAt_take hge] at h
        have : K = l.take K.length := by
          apply good_eq hg hK (fun X h1 h2 => hl X h1 (h2.trans (List.take_prefix _ _)))
          · simp; omega
          · exact h.symm
        rw [this]; exact List.take_prefix _ _
  · exact termAt_pref

theorem merge_of_pref {K l : Log N D} (h : K <+: l) : snapMerge K l = l := by
  unfold snapMerge; rw [if_pos (termAt_pref h)]

theorem merge_nil (l : Log N D) : snapMerge [] l = l := merge_of_pref List.nil_prefix

theorem merge_not {c0 : Conf N} {g : Glob N D} (hg : GBase c0 g) {K l : Log N D}
    (hK : Good g K) (hl : Good g l) (h : ¬ K <+: l) : snapMerge K l = K := by
  unfold snapMerge
  rw [if_neg (fun h' => h ((term_iff_pref hg hK hl).mp h'))]

theorem merge_cases (K l : Log N D) : snapMerge K l = l ∨ snapMerge K l = K := by
  unfold snapMerge; split
  · exact Or.inl rfl
  · exact Or.inr rfl

theorem merge_pref {c0 : Conf N} {g : Glob N D} (hg : GBase c0 g) {K l : Log N D}
    (hK : Good g K) (hl : Good g l) : K <+: snapMerge K l := by
  by_cases h : K <+: l
  · rw [merge_of_pref h]; exact h
  · rw [merge_not hg hK hl h]; exact List.prefix_refl _

theorem merge_good {g : Glob N D} {K l : Log N D} (hK : Good g K) (hl : Good g l) :
    Good g (snapMerge K l) := by
  rcases merge_cases K l with h | h <;> rw [h] <;> assumption

/-- Anything comparable with the snapshot survives. -/
theorem merge_keep {c0 : Conf N} {g : Glob N D} (hg : GBase c0 g) {K l X : Log N D}
    (hK : Good g K) (hl : Good g l) (hX : X <+: l) (hc : X <+: K ∨ K <+: X) :
    X <+: snapMerge K l := by
  by_cases h : K <+: l
  · rw [merge_of_pref h]; exact hX
  · rw [merge_not hg hK hl h]
    rcases hc with h' | h'
    · exact h'
    · exact absurd (h'.trans hX) h

/-- Taking over a committed snapshot loses only entries that some later leader did not have. -/
theorem merge_rel {c0 : Conf N} {g : Glob N D} (hg : GBase c0 g) {K W : Log N D} {u : Nat}
    (hK : Committed g u K) (hW : Good g W) : Rel g.elections W (snapMerge K W) := by
  have hKg := (hK.good hg).1
  intro X hX hXW
  by_cases h : K <+: W
  · rw [merge_of_pref h]; exact Or.inl hXW
  rw [merge_not hg hKg hW h]
  by_cases hXK : X <+: K
  · exact Or.inl hXK
  right
  have hno : ¬ (X <+: K ∨ K <+: X) := by
    rintro (h' | h')
    · exact hXK h'
    · exact h (h'.trans hXW)
  rcases hK with rfl | ⟨C, hC, _, hKC⟩
  · exact absurd List.nil_prefix h
  · have hXc := hW X hX hXW
    have hCc := (hg.com C hC).1
    have hlt : lastTerm X < lastTerm C := by
      rcases Nat.lt_trichotomy (lastTerm X) (lastTerm C) with h' | h' | h'
      · exact h'
      · exfalso
        rcases hg.chain X hXc C hCc h' with h'' | h''
        · exact hno (pref_total h'' hKC)
        · exact hno (Or.inr (hKC.trans h''))
      · exfalso
        obtain ⟨r, hr, ho⟩ := hg.origin X hXc
        have := hg.lc hC hr (by rw [← ho.term]; exact h')
        exact hno (Or.inr ((hKC.trans this).trans ho.pref))
    obtain ⟨r, hr, ho⟩ := hg.origin C hCc
    refine ⟨r, hr, by rw [← ho.term]; exact hlt, ?_⟩
    intro hp
    exact hno (pref_total (hp.trans ho.pref) hKC)

theorem merge_rel2 {c0 : Conf N} {g : Glob N D} (hg : GBase c0 g) {P d d' : Log N D}
    (hP : Good g P) (hd : Good g d) (hd' : Good g d') (h : Rel g.elections d d') :
    Rel g.elections (snapMerge P d) (snapMerge P d') := by
  intro X hX hXd
  by_cases h1 : P <+: d
  · rw [merge_of_pref h1] at hXd
    rcases h X hX hXd with h' | h'
    · exact Or.inl (merge_keep hg hP hd' h' (pref_total hXd h1))
    · exact Or.inr h'
  · rw [merge_not hg hP hd h1] at hXd
    exact Or.inl (hXd.trans (merge_pref hg hP hd'))

theorem merge_merge {c0 : Conf N} {g : Glob N D} (hg : GBase c0 g) {P P' d : Log N D}
    (hP : Good g P) (hP' : Good g P') (hd : Good g d) (h : P <+: P') :
    snapMerge P' (snapMerge P d) = snapMerge P' d := by
  by_cases h1 : P <+: d
  · rw [merge_of_pref h1]
  · have h2 : ¬ P' <+: d := fun h' => h1 (h.trans h')
    rw [merge_not hg hP hd h1, merge_not hg hP' hd h2]
    by_cases h3 : P' <+: P
    · rw [merge_of_pref h3]; exact pref_antisymm h h3
    · exact merge_not hg hP' hP h3

/-- A longer snapshot. -/
theorem merge_rel3 {c0 : Conf N} {g : Glob N D} (hg : GBase c0 g) {P P' d : Log N D} {u : Nat}
    (hP' : Committed g u P') (hd : Good g d) (h : P <+: P') :
    Rel g.elections (snapMerge P d) (snapMerge P' d) := by
  have hg' := (hP'.good hg).1
  have hP : Good g P := fun K h1 h2 => hg' K h1 (h2.trans h)
  rw [← merge_merge hg hP hg' hd h]
  exact merge_rel hg hP' (merge_good hP hd)

theorem drain_loadOps (P d : Log N D) : drain d (loadOps P) = snapMerge P d := by
  unfold loadOps
  by_cases h : P = []
  · subst h; rw [if_pos rfl, merge_nil]; rfl
  · rw [if_neg h]; rfl

/-- Draining the queue below the snapshot. -/
theorem rel_drain {c0 : Conf N} {g : Glob N D} (hg : GBase c0 g) {P d : Log N D}
    {q : List (Op N D)} (hP : Good g P) (hd : Good g d)
    (hv : VOk (fun d op => Good g (applyOp d op)) d q)
    (hr : VOk (fun d op => Rel g.elections d (applyOp d op)) d q) :
    Rel g.elections (snapMerge P d) (snapMerge P (drain d q)) :=
  merge_rel2 hg hP hd (vgood_drain hd hv) (vrel_drain hr)

theorem NodeInv.gsnap {c0 : Conf N} {g : Glob N D} {i : N} {n : NodeSt N D} (hg : GBase c0 g)
    (h : NodeInv c0 g i n) : Good g n.snap := ((h.cs.pre h.sp).good hg).1

theorem NodeInv.rlog {c0 : Conf N} {g : Glob N D} {i : N} {n : NodeSt N D} (hg : GBase c0 g)
    (h : NodeInv c0 g i n) {O : Log N D} (hO : O ∈ g.hist i) : Rel g.elections O n.log := by
  have h1 := rel_drain hg (h.gsnap hg) h.gd h.vgood h.vrel
  rw [← h.mem, merge_of_pref h.sn] at h1
  exact (h.rh O hO).trans h1

end Braft.Raft
