import Verif.Raft.StepsC
/-
Preservation of the invariant: a follower handles AppendEntries. Then: every reachable state
satisfies the invariant.
-/
set_option linter.unusedVariables false
set_option linter.unusedSimpArgs false
set_option linter.unusedSectionVars false

namespace Braft.Raft
variable {N D : Type} [DecidableEq N] [DecidableEq D]

/-! ### Matching and conflicting entries -/

theorem matchLen_le (l : Log N D) (es : List (Entry N D)) :
    matchLen l es ≤ l.length ∧ matchLen l es ≤ es.length := by
  induction l generalizing es with
  | nil => simp [matchLen]
  | cons e l ih =>
    cases es with
    | nil => simp [matchLen]
    | cons e' es =>
      simp only [matchLen]
      split
      · have := ih es; simp; omega
      · simp

theorem matchLen_term (l : Log N D) (es : List (Entry N D)) (j : Nat) (h : j < matchLen l es) :
    ∃ a b, l[j]? = some a ∧ es[j]? = some b ∧ a.term = b.term := by
  induction l generalizing es j with
  | nil => simp [matchLen] at h
  | cons e l ih =>
    cases es with
    | nil => simp [matchLen] at h
    | cons e' es =>
      simp only [matchLen] at h
      split at h
      · next heq =>
        cases j with
        | zero => exact ⟨e, e', rfl, rfl, heq⟩
        | succ j =>
          obtain ⟨a, b, h1, h2, h3⟩ := ih es j (by omega)
          exact ⟨a, b, by simpa using h1, by simpa using h2, h3⟩
      · omega

theorem matchLen_stop (l : Log N D) (es : List (Entry N D)) {a b : Entry N D}
    (ha : l[matchLen l es]? = some a) (hb : es[matchLen l es]? = some b) : a.term ≠ b.term := by
  induction l generalizing es with
  | nil => simp [matchLen] at ha
  | cons e l ih =>
    cases es with
    | nil => simp [matchLen] at hb
    | cons e' es =>
      simp only [matchLen] at ha hb
      split at ha
      · next heq =>
        rw [if_pos heq] at hb
        exact ih es (by simpa using ha) (by simpa using hb)
      · next heq =>
        rw [if_neg heq] at hb
        simp at ha hb
        subst ha; subst hb
        exact heq

theorem lastTerm_take_succ {l : Log N D} {k : Nat} {e : Entry N D} (h : l[k]? = some e) :
    lastTerm (l.take (k + 1)) = e.term := by
  rw [List.take_add_one, h]
  simp [lastTerm_concat]

theorem drain_pop (W : Log N D) (k : Nat) :
    drain W (List.replicate k .pop) = W.take (W.length - k) := by
  induction k generalizing W with
  | zero => simp [drain]
  | succ k ih =>
    have : drain W (List.replicate (k + 1) .pop) = drain W.dropLast (List.replicate k .pop) := rfl
    rw [this, ih, List.dropLast_eq_take, List.take_take, List.length_take]
    congr 1
    omega

theorem vok_pop {P : Log N D → Op N D → Prop} (W : Log N D) (k : Nat) (hk : k ≤ W.length)
    (h : ∀ j, W.length - k < j → j ≤ W.length → P (W.take j) .pop) :
    VOk P W (List.replicate k .pop) := by
  induction k generalizing W with
  | zero => trivial
  | succ k ih =>
    refine ⟨?_, ?_⟩
    · have := h W.length (by omega) (Nat.le_refl _)
      rwa [List.take_length] at this
    · apply ih
      · simp [applyOp]; omega
      · intro j h1 h2
        simp only [applyOp, List.length_dropLast] at h1 h2 ⊢
        rw [List.dropLast_eq_take, List.take_take, Nat.min_eq_left h2]
        exact h j (by omega) (by omega)

/-- What the request and the local log have in common. -/
structure AESit (g : Glob N D) (W L P : Log N D) (es : List (Entry N D)) (t : Nat) : Prop where
  hL : L ∈ g.created
  hLt : lastTerm L = t
  hML : P ++ es <+: L
  hW : GoodAt g t W
  hPW : P <+: W

variable {c0 : Conf N} {g : Glob N D} {W L P : Log N D} {es : List (Entry N D)} {t : Nat}

theorem AESit.hM (hg : GBase c0 g) (h : AESit g W L P es t) : GoodAt g t (P ++ es) := by
  have := (good_of_created hg h.hL).pref hg h.hML
  rw [h.hLt] at this; exact this

theorem AESit.drop_get (h : AESit g W L P es t) (j : Nat) :
    W[P.length + j]? = (W.drop P.length)[j]? := by rw [List.getElem?_drop]

/-- The matching entries are equal. -/
theorem AESit.common (hg : GBase c0 g) (h : AESit g W L P es t) :
    W.take (P.length + matchLen (W.drop P.length) es) =
      (P ++ es).take (P.length + matchLen (W.drop P.length) es) := by
  generalize hk : matchLen (W.drop P.length) es = k
  have hle := matchLen_le (W.drop P.length) es
  rw [hk] at hle
  have hPl := h.hPW.length_le
  simp only [List.length_drop] at hle
  cases k with
  | zero =>
    simp only [Nat.add_zero]
    rw [take_pref_of h.hPW (Nat.le_refl _), take_pref_of (List.prefix_append P es) (Nat.le_refl _)]
  | succ k =>
    obtain ⟨a, b, h1, h2, h3⟩ := matchLen_term (W.drop P.length) es k (by omega)
    apply good_eq hg (h.hW.pref hg (List.take_prefix _ _)).1
      ((h.hM hg).pref hg (List.take_prefix _ _)).1
    · simp; omega
    · have e1 : W[P.length + k]? = some a := by rw [h.drop_get, h1]
      have e2 : (P ++ es)[P.length + k]? = some b := by
        rw [List.getElem?_append_right (by omega)]
        simpa using h2
      rw [← Nat.add_assoc, lastTerm_take_succ e1, lastTerm_take_succ e2, h3]

/-- A part of the local log that reaches into the conflicting entries is not comparable with the
leader's log. -/
theorem AESit.nocross (h : AESit g W L P es t) {K : Log N D}
    (hk : matchLen (W.drop P.length) es < es.length) (hKW : K <+: W)
    (hlen : P.length + matchLen (W.drop P.length) es < K.length) : ¬ (K <+: L ∨ L <+: K) := by
  generalize hkk : matchLen (W.drop P.length) es = k at hk hlen
  intro hcmp
  have hKl := hKW.length_le
  have hMl := h.hML.length_le
  -- the first differing entries
  have hb : ∃ b, (P ++ es)[P.length + k]? = some b ∧ es[k]? = some b := by
    refine ⟨es[k], ?_, by simp [hk]⟩
    rw [List.getElem?_append_right (by omega)]
    simp [hk]
  have ha : ∃ a, K[P.length + k]? = some a := ⟨K[P.length + k], by simp [hlen]⟩
  obtain ⟨b, hb1, hb2⟩ := hb
  obtain ⟨a, ha1⟩ := ha
  have haW : W[P.length + k]? = some a := by
    obtain ⟨tl, rfl⟩ := hKW
    rw [List.getElem?_append_left hlen]; exact ha1
  have hbL : L[P.length + k]? = some b := by
    obtain ⟨tl, hL⟩ := h.hML
    rw [← hL, List.getElem?_append_left (by simp; omega)]; exact hb1
  have hne : a.term ≠ b.term := by
    apply matchLen_stop (W.drop P.length) es
    · rw [hkk, ← h.drop_get]; exact haW
    · rw [hkk]; exact hb2
  have hlenM : P.length + k < L.length := by
    rw [List.length_append] at hMl; omega
  have : a = b := by
    rcases hcmp with ⟨tl, hc⟩ | ⟨tl, hc⟩
    · rw [← hc, List.getElem?_append_left hlen, ha1] at hbL
      exact Option.some.inj hbL
    · rw [← hc, List.getElem?_append_left hlenM, hbL] at ha1
      exact (Option.some.inj ha1).symm
  exact hne (by rw [this])

/-- Conflicting entries are entries a later leader did not have. -/
theorem AESit.culprit (hg : GBase c0 g) (h : AESit g W L P es t) {K : Log N D}
    (hk : matchLen (W.drop P.length) es < es.length) (hKW : K <+: W) (hK : K ≠ [])
    (hlen : P.length + matchLen (W.drop P.length) es < K.length) : Culprit g.elections K := by
  have hno := h.nocross hk hKW hlen
  have hKc := h.hW.1 K hK hKW
  have hKt := (h.hW.pref hg hKW).2
  have hlt : lastTerm K < t := by
    rcases Nat.lt_or_ge (lastTerm K) t with h' | h'
    · exact h'
    · exact absurd (hg.chain K hKc L h.hL (by rw [h.hLt]; omega)) hno
  obtain ⟨r, hr, ho⟩ := hg.origin L h.hL
  refine ⟨r, hr, by rw [← ho.term, h.hLt]; exact hlt, ?_⟩
  intro hp
  exact hno (Or.inl (hp.trans ho.pref))

/-- The steps queued when the entries conflict or extend the log. -/
theorem resolveOps_eq (h : AESit g W L P es t)
    (hk : matchLen (W.drop P.length) es < es.length) :
    resolveOps W P.length es =
      List.replicate (W.length - (P.length + matchLen (W.drop P.length) es)) .pop ++
        (es.drop (matchLen (W.drop P.length) es)).map .push := by
  unfold resolveOps
  by_cases h2 : P.length + matchLen (W.drop P.length) es < W.length
  · simp [hk, h2]
  · have : W.length - (P.length + matchLen (W.drop P.length) es) = 0 := by omega
    rw [this]
    simp [h2]

theorem resolveOps_nil (h : AESit g W L P es t)
    (hk : ¬ matchLen (W.drop P.length) es < es.length) :
    resolveOps W P.length es = [] := by
  unfold resolveOps
  have := (matchLen_le (W.drop P.length) es).2
  have he : matchLen (W.drop P.length) es = es.length := by omega
  simp [he]

/-- After the queued steps the log holds the request's entries. -/
theorem AESit.drain (hg : GBase c0 g) (h : AESit g W L P es t) :
    (matchLen (W.drop P.length) es < es.length ∧ drain W (resolveOps W P.length es) = P ++ es) ∨
    (resolveOps W P.length es = [] ∧ P ++ es <+: W) := by
  have hcom := h.common hg
  have hle := matchLen_le (W.drop P.length) es
  have hPl := h.hPW.length_le
  simp only [List.length_drop] at hle
  by_cases hk : matchLen (W.drop P.length) es < es.length
  · left
    refine ⟨hk, ?_⟩
    rw [resolveOps_eq h hk, drain_append, drain_pop, drain_push]
    rw [show W.length - (W.length - (P.length + matchLen (W.drop P.length) es)) =
      P.length + matchLen (W.drop P.length) es by omega, hcom]
    have : es.drop (matchLen (W.drop P.length) es) =
        (P ++ es).drop (P.length + matchLen (W.drop P.length) es) := by
      rw [List.drop_append, List.drop_eq_nil_of_le (Nat.le_add_right _ _)]
      simp
    rw [this, List.take_append_drop]
  · right
    refine ⟨resolveOps_nil h hk, ?_⟩
    have he : matchLen (W.drop P.length) es = es.length := by omega
    rw [he] at hcom
    have h2 : (P ++ es).take (P.length + es.length) = P ++ es := by
      apply List.take_of_length_le; simp
    rw [← h2, ← hcom]
    exact List.take_prefix _ _

/-- A part of the local log that is comparable with the leader's log survives. -/
theorem AESit.keep (hg : GBase c0 g) (h : AESit g W L P es t) {K : Log N D} (hKW : K <+: W)
    (hcmp : K <+: L ∨ L <+: K) : K <+: Raft.drain W (resolveOps W P.length es) := by
  rcases h.drain hg with ⟨hk, he⟩ | ⟨he, _⟩
  · rw [he]
    have hlen : K.length ≤ P.length + matchLen (W.drop P.length) es := by
      rcases Nat.lt_or_ge (P.length + matchLen (W.drop P.length) es) K.length with h' | h'
      · exact absurd hcmp (h.nocross hk hKW h')
      · exact h'
    have h1 : K <+: W.take (P.length + matchLen (W.drop P.length) es) := by
      apply List.prefix_of_prefix_length_le hKW (List.take_prefix _ _)
      have := hKW.length_le
      simp; omega
    rw [h.common hg] at h1
    exact h1.trans (List.take_prefix _ _)
  · rw [he]; exact hKW

/-! ### The handler -/

theorem vgoodAt_drain {d : Log N D} {q : List (Op N D)}
    (hd : GoodAt g t d) (h : VOk (fun d op => GoodAt g t (applyOp d op)) d q) :
    GoodAt g t (drain d q) := by
  induction q generalizing d with
  | nil => exact hd
  | cons op q ih => exact ih h.1 h.2

theorem NodeInv.aeAppend {i : N} {n : NodeSt N D} (hg : GBase c0 g) (hn : NodeInv c0 g i n)
    (hrole : n.role = .follower) (c : Nat) (hes : es ≠ [])
    (hs : AESit g n.log L P es n.term)
    (hcm : Committed g n.term ((P ++ es).take (min c (P.length + es.length)))) :
    NodeInv c0 g i (aeAppend n n.term P.length es c) := by
  have hmem := hn.mem
  have hdr := hs.drain hg
  generalize hops : resolveOps n.log P.length es = ops at hdr
  have hML : P ++ es <+: Raft.drain n.log ops := by
    rcases hdr with ⟨_, he⟩ | ⟨he, hp⟩
    · rw [he]; exact List.prefix_refl _
    · rw [he]; exact hp
  have hmt : (Raft.drain n.log ops).take (P.length + es.length) = P ++ es := by
    rw [← List.length_append]; exact (prefix_take hML).symm
  have hM := hs.hM hg
  have hpl := hs.hPW.length_le
  have hmle := matchLen_le (n.log.drop P.length) es
  simp only [List.length_drop] at hmle
  have hg1 : VOk (fun d op => GoodAt g n.term (applyOp d op)) n.log ops := by
    rcases hdr with ⟨hk, he⟩ | ⟨he, _⟩
    · rw [← hops, resolveOps_eq hs hk, VOk_append, drain_pop]
      constructor
      · apply vok_pop _ _ (by omega)
        intro j _ _
        exact hs.hW.pref hg ((List.dropLast_prefix _).trans (List.take_prefix _ _))
      · apply vok_push
        intro es' e hp
        rw [← hops, resolveOps_eq hs hk, drain_append, drain_pop, drain_push] at he
        apply hM.pref hg
        rw [← he]
        simp only [applyOp, List.append_assoc]
        exact (List.prefix_append_right_inj _).mpr hp
    · rw [he]; trivial
  have hr1 : VOk (fun d op => Rel g.elections d (applyOp d op)) n.log ops := by
    rcases hdr with ⟨hk, he⟩ | ⟨he, _⟩
    · rw [← hops, resolveOps_eq hs hk, VOk_append]
      constructor
      · apply vok_pop _ _ (by omega)
        intro j hj1 hj2 K hK hKp
        by_cases hKe : K = n.log.take j
        · right
          apply hs.culprit hg hk (hKp.trans (List.take_prefix _ _)) hK
          rw [hKe]; simp; omega
        · left
          show K <+: (n.log.take j).dropLast
          rcases snoc_cases (n.log.take j) with h0 | ⟨l, e, h0⟩
          · rw [h0] at hKp hKe; exact absurd (List.prefix_nil.mp hKp) hKe
          · rw [h0] at hKp hKe ⊢
            simp only [List.dropLast_concat]
            exact pref_of_ne_concat hKp hKe
      · apply vok_push
        intro es' e hp K _ hK
        exact Or.inl (hK.trans (List.prefix_append _ _))
    · rw [he]; trivial
  have hm1 : ∀ n', VOk (Mark g n') n.log ops := by
    intro n'
    rcases hdr with ⟨hk, he⟩ | ⟨he, _⟩
    · rw [← hops, resolveOps_eq hs hk, VOk_append]
      exact ⟨vok_pop _ _ (by omega) (fun _ _ _ => trivial), vok_push _ _ (fun _ _ _ => trivial)⟩
    · rw [he]; trivial
  have hglog' : GoodAt g n.term (Raft.drain n.log ops) := vgoodAt_drain hs.hW hg1
  -- committed entries survive
  have hkeepc : n.log.take n.commit <+: Raft.drain n.log ops := by
    rw [← hops]
    exact hs.keep hg (List.take_prefix _ _)
      (hg.comm_cmp hn.cc hs.hL (by rw [hs.hLt]; exact Nat.le_refl _))
  have hlenc : (n.log.take n.commit).length = n.commit := by
    have := hn.cl; simp; omega
  have hkeepa : n.log.take n.applied <+: Raft.drain n.log ops := by
    rw [← hops]
    exact hs.keep hg (List.take_prefix _ _)
      (hg.comm_cmp hn.ac hs.hL (by rw [hs.hLt]; exact Nat.le_refl _))
  have hlena : (n.log.take n.applied).length = n.applied := by
    have := hn.ap; simp; omega
  have htka : (Raft.drain n.log ops).take n.applied = n.log.take n.applied := by
    have := take_pref_of hkeepa (k := n.applied) (by omega)
    rw [this, List.take_take, Nat.min_self]
  have hlog' : (Raft.aeAppend n n.term P.length es c).log = Raft.drain n.log ops := by
    simp only [Raft.aeAppend, hops]
  have hqueue' : (Raft.aeAppend n n.term P.length es c).queue =
      n.queue ++ ops ++ [.ackF n.term (P ++ es) c] := by
    simp only [Raft.aeAppend, hops, hmt]
  exact {
    pt := hn.pt
    t1 := hn.t1
    mem := by
      rw [hlog', hqueue']
      show _ = Raft.drain n.disk _
      rw [drain_append, drain_append, ← hmem]; rfl
    hd := hn.hd
    gd := hn.gd
    vgood := by
      rw [hqueue']
      show VOk _ n.disk _
      rw [VOk_append, VOk_append, drain_append, ← hmem]
      exact ⟨⟨hn.vgood, hg1.imp (fun _ _ _ hp => hp.1)⟩, hglog'.1, trivial⟩
    lt := by rw [hlog']; exact hglog'.2
    gh := hn.gh
    rh := hn.rh
    vrel := by
      rw [hqueue']
      show VOk _ n.disk _
      rw [VOk_append, VOk_append, drain_append, ← hmem]
      exact ⟨⟨hn.vrel, hr1⟩, Rel.refl _ _, trivial⟩
    vmark := by
      rw [hqueue']
      show VOk _ n.disk _
      rw [VOk_append, VOk_append, drain_append, ← hmem]
      refine ⟨⟨hn.vmark.imp ?_, hm1 _⟩, ⟨by simp [hes], hML, ⟨L, hs.hL, hs.hLt, hs.hML⟩,
        Nat.le_refl _, ?_, ?_⟩, trivial⟩
      · intro d op _ hp
        cases op with
        | push => trivial
        | pop => trivial
        | snap => trivial
        | ackF t' M' c' =>
          obtain ⟨h0, h1, ⟨L', hL', hLt', hML'⟩, h3, h4, h5⟩ := hp
          refine ⟨h0, h1, ⟨L', hL', hLt', hML'⟩, h3, ?_, h5⟩
          intro ht'
          rw [hlog', ← hops]
          have ht2 : t' = n.term := ht'
          apply hs.keep hg (h4 ht2)
          rcases hg.chain L hs.hL L' hL' (by rw [hs.hLt, hLt', ht2]) with h' | h'
          · exact pref_total hML' h'
          · exact Or.inl (hML'.trans h')
        | ackL M' =>
          refine ⟨hp.1, hp.2.1, hp.2.2.1, ?_⟩
          intro hr
          have hr' : n.role = .leader := hr
          rw [hrole] at hr'; cases hr'
      · intro _; rw [hlog']; exact hML
      · rw [List.length_append]; exact hcm
    lead := by
      intro hr
      have hr' : n.role = .leader := hr
      rw [hrole] at hr'; cases hr'
    el := fun r hr hi => ⟨(hn.el r hr hi).1, (hn.el r hr hi).2⟩
    v1 := hn.v1
    vmem := hn.vmem
    pv := hn.pv
    mv := hn.mv
    elec := hn.elec
    cand := by
      intro hr
      have hr' : n.role = .candidate := hr
      rw [hrole] at hr'; cases hr'
    vf := hn.vf
    cl := by
      rw [hlog']
      have := hkeepc.length_le
      rw [hlenc] at this
      exact this
    cc := by
      rw [hlog']
      show Committed g n.term ((Raft.drain n.log ops).take n.commit)
      have := take_pref_of hkeepc (k := n.commit) (by omega)
      rw [this, List.take_take, Nat.min_self]
      exact hn.cc
    ap := by
      rw [hlog']
      have := hkeepa.length_le
      rw [hlena] at this
      exact this
    ac := by
      rw [hlog']
      show Committed g n.term ((Raft.drain n.log ops).take n.applied)
      rw [htka]; exact hn.ac
    sn := by
      rw [hlog']
      show n.snap <+: Raft.drain n.log ops
      have h1 : n.snap <+: n.log.take n.applied :=
        List.prefix_of_prefix_length_le hn.sn (List.take_prefix _ _)
          (by rw [hlena]; exact hn.sa)
      exact h1.trans hkeepa
    sp := hn.sp
    cs := hn.cs
    sa := hn.sa
    dlc := hn.dlc
    dlf := hn.dlf
    smi := by
      rw [hlog']
      show n.sm = (Raft.drain n.log ops).take n.applied
      rw [htka]; exact hn.smi }

/-- Raising the commit index inside a known committed prefix. -/
theorem NodeInv.commitTo {i : N} {n : NodeSt N D} (hn : NodeInv c0 g i n) {M : Log N D} {k : Nat}
    (hM : M <+: n.log) (hk : k ≤ M.length) (hc : Committed g n.term (M.take k)) :
    NodeInv c0 g i { n with commit := max n.commit k } :=
  { hn with
    vmark := hn.vmark.imp (fun d op _ hp => hp.upd (Nat.le_refl _)
      (fun _ => List.prefix_refl _) (fun hr => ⟨hr, rfl⟩))
    cl := by
      have := hn.cl; have := hM.length_le
      show max n.commit k ≤ n.log.length
      omega
    cc := by
      show Committed g n.term (n.log.take (max n.commit k))
      rcases Nat.le_total n.commit k with hle | hle
      · rw [Nat.max_eq_right hle, take_pref_of hM hk]; exact hc
      · rw [Nat.max_eq_left hle]; exact hn.cc }

theorem aeStepDown_inv {i : N} {n : NodeSt N D} (h : NodeInv c0 g i n) (t : Nat) (ok : Bool) :
    NodeInv c0 g i (aeStepDown n t ok) := by
  unfold aeStepDown; split
  · exact h.stepDown _ _
  · exact h

theorem aeStepDown_term {n : NodeSt N D} {t : Nat} (ok : Bool) (ht : n.term ≤ t) :
    (aeStepDown n t ok).term = t := by
  unfold aeStepDown; split
  · rw [stepDown_term]; omega
  · next hx =>
    have : ¬ n.term < t := fun hh => hx (Or.inl hh)
    omega

theorem aeStepDown_role (n : NodeSt N D) (t : Nat) (ok : Bool) :
    (aeStepDown n t ok).role = .follower := by
  unfold aeStepDown; split
  · simp
  · next hx =>
    exact Classical.byContradiction fun hh => hx (Or.inr hh)

theorem inv_recvAE {s : Sys N D} (h : Inv c0 s) (i : N) (t prev pt : Nat)
    (es : List (Entry N D)) (c : Nat) (ok gone : Bool) (hm : Msg.ae t prev pt es c ∈ s.g.msgs)
    (ht : (s.node i).term ≤ t) :
    Inv c0 (if (handleAE (s.node i) t prev pt es c ok gone).2 then
      { node := updF s.node i (handleAE (s.node i) t prev pt es c ok gone).1,
        g := s.g.send (.ar t i (prev + es.length)) }
      else setNode s i (handleAE (s.node i) t prev pt es c ok gone).1) := by
  have hn0 := h.n i
  have hgb := h.g.toGBase
  obtain ⟨L, hL, hLt, P, hPl, hPt, hML, hcm⟩ := h.g.ae _ _ _ _ _ hm
  unfold handleAE
  simp only []
  have hn : NodeInv c0 s.g i (aeStepDown (s.node i) t ok) := aeStepDown_inv hn0 t ok
  have hterm : (aeStepDown (s.node i) t ok).term = t := aeStepDown_term ok ht
  have hrole : (aeStepDown (s.node i) t ok).role = .follower := aeStepDown_role _ _ _
  generalize hn1 : aeStepDown (s.node i) t ok = n1 at hn hterm hrole ⊢
  have hfol : n1.role = .leader → OwnOK n1 := by intro hr; rw [hrole] at hr; cases hr
  have hfol' : ∀ n' : NodeSt N D, n'.role = n1.role → n'.role = .leader → OwnOK n' := by
    intro n' h1 h2; rw [h1, hrole] at h2; cases h2
  by_cases hx : (gone || (n1.dl.isSome && !es.isEmpty) || !prevOk n1 prev pt) = true
  · simp only [hx, if_true, Bool.false_eq_true, if_false]
    exact inv_node h i hn hfol
  simp only [hx, Bool.false_eq_true, if_false]
  have hp : prevOk n1 prev pt = true := by
    simp only [Bool.not_eq_true, Bool.or_eq_false_iff, Bool.not_eq_false'] at hx
    exact hx.2
  · simp only [prevOk, Bool.and_eq_true, decide_eq_true_eq] at hp
    obtain ⟨hp1, hp2⟩ := hp
    have hW : GoodAt s.g t n1.log := by rw [← hterm]; exact hn.glog
    have hLg := good_of_created hgb hL
    rw [hLt] at hLg
    have hPW : P <+: n1.log := by
      have : P = n1.log.take prev := by
        apply good_eq hgb
        · exact (hLg.pref hgb ((List.prefix_append _ _).trans hML)).1
        · exact (hW.pref hgb (List.take_prefix _ _)).1
        · simp; omega
        · rw [hPt, ← termAt_take hp1, hp2]
      rw [this]; exact List.take_prefix _ _
    have hs : AESit s.g n1.log L P es t := ⟨hL, hLt, hML, hW, hPW⟩
    by_cases he : es = []
    · simp only [he, if_true, Bool.false_eq_true, if_false]
      refine inv_node h i ?_ (by intro hr; exact hfol' _ (by rfl) hr)
      subst he
      simp only [List.append_nil, List.length_nil, Nat.add_zero] at hcm
      exact hn.commitTo hPW (by omega) (by rw [hterm]; exact hcm)
    · simp only [he, if_false]
      by_cases hd : prev + es.length ≤ n1.applied
      · simp only [hd, if_true]
        have hMl : (P ++ es).length = prev + es.length := by simp [hPl]
        have hap := hn.ap
        have hX : P ++ es <+: n1.log.take n1.applied := by
          have hlenX : (n1.log.take n1.applied).length = n1.applied := by simp; omega
          rcases hgb.comm_cmp hn.ac hL (by rw [hLt, hterm]; exact Nat.le_refl _) with h' | h'
          · exact List.prefix_of_prefix_length_le hML h' (by omega)
          · exact hML.trans h'
        have hMc : Committed s.g t (P ++ es) := by rw [← hterm]; exact hn.ac.pre hX
        have hMW := hX.trans (List.take_prefix _ _)
        have hE := ext_send i s.g (.ar t i (prev + es.length))
        apply inv_upd h i hE
        · apply h.g.send
          exact ⟨P ++ es, hMl, by simp [he], ⟨L, hL, hLt, hML⟩, Or.inr hMc⟩
        · have := hn.commitTo (k := min c (prev + es.length)) hMW (by omega)
            (by rw [hterm]; exact hMc.pre (List.take_prefix _ _))
          exact this.self hE rfl rfl rfl rfl
        · intro j _ _ K hK; exact Or.inl hK
        · exact hfol' _ rfl
      · simp only [hd, if_false, Bool.false_eq_true]
        refine inv_node h i ?_ (by intro hr; exact hfol' _ (by rfl) hr)
        subst hPl
        subst hterm
        exact hn.aeAppend hgb hrole c he hs hcm

/-! ### Snapshots -/

theorem inv_saveSnap {s : Sys N D} (h : Inv c0 s) (i : N) (k : Nat)
    (hdl : (s.node i).dl = none) (hk : (s.node i).psnap.length < k)
    (hka : k ≤ (s.node i).applied) (hpt : (s.node i).pterm = (s.node i).term) :
    Inv c0 {
      node := updF s.node i { s.node i with
        snap := (s.node i).sm.take k, psnap := (s.node i).sm.take k },
      g := s.g.held i ((s.node i).sm.take k) } := by
  have hn := h.n i
  have hgb := h.g.toGBase
  have hS : (s.node i).sm.take k = (s.node i).log.take k := by
    rw [hn.smi, List.take_take, Nat.min_eq_left hka]
  generalize (s.node i).sm.take k = S at hS ⊢
  have hap := hn.ap
  have hSl : S.length = k := by rw [hS]; simp; omega
  have hSp : S <+: (s.node i).log := by rw [hS]; exact List.take_prefix _ _
  have hSc : Committed s.g (s.node i).term S := by
    apply hn.ac.pre; rw [hS]; exact List.take_prefix_take_left hka
  have hsnS : (s.node i).snap <+: S :=
    List.prefix_of_prefix_length_le hn.sn hSp (by have := hn.sp.length_le; omega)
  have hSg := (hSc.good hgb).1
  apply inv_upd h i (ext_held i s.g _) (h.g.held i _)
  · have h1 : NodeInv c0 s.g i { s.node i with snap := S, psnap := S } := { hn with
      vmark := hn.vmark.imp (fun d op _ hp => hp.upd (Nat.le_refl _)
        (fun _ => List.prefix_refl _) (fun hr => ⟨hr, rfl⟩))
      rh := fun O hO => (hn.rh O hO).trans (merge_rel3 hgb hSc hn.gd hsnS)
      sn := hSp
      sp := List.prefix_refl _
      cs := by show Committed s.g (s.node i).pterm S; rw [hpt]; exact hSc
      sa := by show S.length ≤ (s.node i).applied; omega
      dlc := by
        intro K hK
        have hK' : (s.node i).dl = some K := hK
        rw [hdl] at hK'; cases hK' }
    apply h1.held hSg
    intro K _ hK
    exact Or.inl (hK.trans (merge_pref hgb hSg hn.gd))
  · intro j _ _ K hK; exact Or.inl hK
  · exact h.own i

theorem inv_sendIS {s : Sys N D} (h : Inv c0 s) (i : N) :
    Inv c0 { s with g := s.g.send (.is (s.node i).term (s.node i).psnap) } := by
  apply inv_g h i (ext_send i s.g _) _ rfl rfl rfl rfl
  apply h.g.send
  exact (h.n i).cs.mono (h.n i).pt

theorem inv_recvIS {s : Sys N D} (h : Inv c0 s) (i : N) (t : Nat) (K : Log N D) (ok : Bool)
    (hm : Msg.is t K ∈ s.g.msgs) (ht : (s.node i).term ≤ t) :
    Inv c0 (setNode s i (handleIS (s.node i) t K ok)) := by
  have hn : NodeInv c0 s.g i (aeStepDown (s.node i) t ok) := aeStepDown_inv (h.n i) t ok
  have hterm : (aeStepDown (s.node i) t ok).term = t := aeStepDown_term ok ht
  have hrole : (aeStepDown (s.node i) t ok).role = .follower := aeStepDown_role _ _ _
  unfold handleIS
  dsimp only
  generalize aeStepDown (s.node i) t ok = n1 at hn hterm hrole ⊢
  split
  · next hc =>
    apply inv_node h i
    · exact { hn with
        vmark := hn.vmark.imp (fun d op _ hp => hp.upd (Nat.le_refl _)
          (fun _ => List.prefix_refl _) (fun hr => ⟨hr, rfl⟩))
        dlc := by
          intro K' hK'
          obtain rfl : K = K' := Option.some.inj hK'
          exact ⟨by show Committed s.g n1.term K; rw [hterm]; exact h.g.is t K hm, hc.2⟩
        dlf := fun _ => hrole }
    · intro hr
      have hr' : n1.role = .leader := hr
      rw [hrole] at hr'; cases hr'
  · apply inv_node h i hn
    intro hr; rw [hrole] at hr; cases hr

theorem inv_copied {s : Sys N D} (h : Inv c0 s) (i : N) (hdl : (s.node i).dl ≠ none)
    (hpt : (s.node i).pterm = (s.node i).term) :
    Inv c0 (setNode s i { s.node i with
      psnap := ((s.node i).dl).getD (s.node i).psnap }) := by
  have hn := h.n i
  have hgb := h.g.toGBase
  cases hd : (s.node i).dl with
  | none => exact absurd hd hdl
  | some K =>
    obtain ⟨hK, hl⟩ := hn.dlc K hd
    apply inv_node h i
    · exact { hn with
        vmark := hn.vmark.imp (fun d op _ hp => hp.upd (Nat.le_refl _)
          (fun _ => List.prefix_refl _) (fun hr => ⟨hr, rfl⟩))
        sp := by
          show (s.node i).snap <+: K
          rcases hgb.comm_total (hn.cs.pre hn.sp) hK with h' | h'
          · exact h'
          · have := h'.length_le; omega
        cs := by show Committed s.g (s.node i).pterm K; rw [hpt]; exact hK }
    · exact h.own i

theorem inv_dlDrop {s : Sys N D} (h : Inv c0 s) (i : N) :
    Inv c0 (setNode s i { s.node i with dl := none }) := by
  have hn := h.n i
  apply inv_node h i
  · exact { hn with
      vmark := hn.vmark.imp (fun d op _ hp => hp.upd (Nat.le_refl _)
        (fun _ => List.prefix_refl _) (fun hr => ⟨hr, rfl⟩))
      dlc := by intro K hK; simp at hK
      dlf := by intro hne; simp at hne }
  · exact h.own i

/-- A snapshot is not stale exactly when it reaches at least as far as what is applied. -/
theorem NodeInv.stale_iff {i : N} {n : NodeSt N D} (hg : GBase c0 g) (hn : NodeInv c0 g i n)
    {K : Log N D} {u : Nat} (hK : Committed g u K) :
    idLe (termAt n.log n.applied, n.applied) (lastId K) = true ↔ n.applied ≤ K.length := by
  rw [idLe_iff, termAt_take hn.ap]
  have hap := hn.ap
  have hl : (n.log.take n.applied).length = n.applied := by simp; omega
  have hgA := (hn.ac.good hg).1
  have hgK := (hK.good hg).1
  have hmono : ∀ X Y : Log N D, Good g Y → X <+: Y → lastTerm X ≤ lastTerm Y := by
    intro X Y hY hXY
    by_cases h0 : Y = []
    · subst h0; rw [List.prefix_nil.mp hXY]; exact Nat.le_refl _
    · exact hg.mono Y (hY Y h0 (List.prefix_refl _)) X hXY
  show (lastTerm (n.log.take n.applied) < lastTerm K ∨
    (lastTerm (n.log.take n.applied) = lastTerm K ∧ n.applied ≤ K.length)) ↔ _
  rcases hg.comm_total hn.ac hK with h | h
  · have h1 := hmono _ _ hgK h
    have h2 := h.length_le
    omega
  · have h1 := hmono _ _ hgA h
    have h2 := h.length_le
    rw [hl] at h2
    constructor
    · omega
    · intro h3
      have he := h.eq_of_length_le (by rw [hl]; exact h3)
      right
      exact ⟨by rw [← he], h3⟩

theorem NodeInv.loadedOk {i : N} {n : NodeSt N D} (hg : GBase c0 g) (hn : NodeInv c0 g i n)
    {K : Log N D} (hKp : K = n.psnap) (hK : Committed g n.term K) (hl : n.snap.length < K.length)
    (hrole : n.role = .follower) :
    NodeInv c0 g i { n with
      dl := none, applied := K.length, sm := K, snap := K, log := snapMerge K n.log,
      queue := n.queue ++ [.snap K] } := by
  have hKg := (hK.good hg).1
  have hglog := hn.glog
  have hmp := merge_pref hg hKg hglog.1
  have htk : (snapMerge K n.log).take K.length = K := (prefix_take hmp).symm
  have hkc : n.log.take n.commit <+: snapMerge K n.log :=
    merge_keep hg hKg hglog.1 (List.take_prefix _ _) (hg.comm_total hn.cc hK)
  have hlc : (n.log.take n.commit).length = n.commit := by have := hn.cl; simp; omega
  have hsp : n.snap <+: K := by rw [hKp]; exact hn.sp
  exact {
    pt := hn.pt
    t1 := hn.t1
    mem := by
      show snapMerge K n.log = Raft.drain n.disk (n.queue ++ [.snap K])
      rw [drain_append, ← hn.mem]; rfl
    hd := hn.hd
    gd := hn.gd
    vgood := by
      show VOk _ n.disk (n.queue ++ [.snap K])
      rw [VOk_append, ← hn.mem]
      exact ⟨hn.vgood, merge_good hKg hglog.1, trivial⟩
    lt := by
      show lastTerm (snapMerge K n.log) ≤ n.term
      rcases merge_cases K n.log with h | h <;> rw [h]
      · exact hn.lt
      · exact (hK.good hg).2
    gh := hn.gh
    rh := fun O hO => (hn.rh O hO).trans (merge_rel3 hg hK hn.gd hsp)
    vrel := by
      show VOk _ n.disk (n.queue ++ [.snap K])
      rw [VOk_append, ← hn.mem]
      exact ⟨hn.vrel, merge_rel hg hK hglog.1, trivial⟩
    vmark := by
      show VOk _ n.disk (n.queue ++ [.snap K])
      rw [VOk_append, ← hn.mem]
      refine ⟨hn.vmark.imp ?_, trivial, trivial⟩
      intro d op _ hp
      cases op with
      | push => trivial
      | pop => trivial
      | snap => trivial
      | ackF t' M' c' =>
        obtain ⟨h0, h1, ⟨L', hL', hLt', hML'⟩, h3, h4, h5⟩ := hp
        refine ⟨h0, h1, ⟨L', hL', hLt', hML'⟩, h3, ?_, h5⟩
        intro ht'
        have ht2 : t' = n.term := ht'
        apply merge_keep hg hKg hglog.1 (h4 ht2)
        rcases hg.comm_cmp hK hL' (by omega) with h' | h'
        · exact pref_total hML' h'
        · exact Or.inl (hML'.trans h')
      | ackL M' =>
        refine ⟨hp.1, hp.2.1, hp.2.2.1, ?_⟩
        intro hr
        have hr' : n.role = .leader := hr
        rw [hrole] at hr'; cases hr'
    lead := by
      intro hr
      have hr' : n.role = .leader := hr
      rw [hrole] at hr'; cases hr'
    el := fun r hr hi => ⟨(hn.el r hr hi).1, (hn.el r hr hi).2⟩
    v1 := hn.v1
    vmem := hn.vmem
    pv := hn.pv
    mv := hn.mv
    elec := hn.elec
    cand := by
      intro hr
      have hr' : n.role = .candidate := hr
      rw [hrole] at hr'; cases hr'
    vf := hn.vf
    cl := by
      have := hkc.length_le
      rw [hlc] at this
      exact this
    cc := by
      show Committed g n.term ((snapMerge K n.log).take n.commit)
      have := take_pref_of hkc (k := n.commit) (by omega)
      rw [this, List.take_take, Nat.min_self]
      exact hn.cc
    ap := hmp.length_le
    ac := by
      show Committed g n.term ((snapMerge K n.log).take K.length)
      rw [htk]; exact hK
    sn := hmp
    sp := by show K <+: n.psnap; rw [hKp]; exact List.prefix_refl _
    cs := hn.cs
    sa := Nat.le_refl _
    dlc := by intro K' hK'; simp at hK'
    dlf := by intro hne; simp at hne
    smi := htk.symm }

theorem inv_loaded {s : Sys N D} (h : Inv c0 s) (i : N)
    (hdl : (s.node i).dl = some (s.node i).psnap) :
    Inv c0 {
      node := updF s.node i (handleLoaded (s.node i) (s.node i).psnap),
      g := s.g.held i (handleLoaded (s.node i) (s.node i).psnap).snap } := by
  have hn := h.n i
  have hgb := h.g.toGBase
  obtain ⟨hK, hl⟩ := hn.dlc _ hdl
  have hrole := hn.dlf (by rw [hdl]; simp)
  have h1 : NodeInv c0 s.g i (handleLoaded (s.node i) (s.node i).psnap) := by
    unfold handleLoaded
    by_cases hid : idLe (termAt (s.node i).log (s.node i).applied, (s.node i).applied)
        (lastId (s.node i).psnap) = true
    · rw [if_pos hid, if_pos hl]
      exact hn.loadedOk hgb rfl hK hl hrole
    · rw [if_neg hid]
      exact { hn with
        vmark := hn.vmark.imp (fun d op _ hp => hp.upd (Nat.le_refl _)
          (fun _ => List.prefix_refl _) (fun hr => ⟨hr, rfl⟩))
        dlc := by intro K hK; simp at hK
        dlf := by intro hne; simp at hne }
  have hrole' : (handleLoaded (s.node i) (s.node i).psnap).role = .follower := by
    unfold handleLoaded
    repeat' split
    all_goals exact hrole
  generalize handleLoaded (s.node i) (s.node i).psnap = n' at h1 hrole' ⊢
  apply inv_upd h i (ext_held i s.g _) (h.g.held i _)
  · apply h1.held (h1.gsnap hgb)
    intro K _ hK
    exact Or.inl (hK.trans (merge_pref hgb (h1.gsnap hgb) h1.gd))
  · intro j _ _ K hK; exact Or.inl hK
  · intro hr; rw [hrole'] at hr; cases hr

/-! ### All actions -/

theorem inv_step {s s' : Sys N D} (h : Inv c0 s) (hs : Step ⟨true, true, true, true, true⟩ c0 s s') : Inv c0 s' := by
  obtain ⟨a, hp, rfl⟩ := hs
  cases a with
  | raiseTerm i t ok => exact inv_raiseTerm h i t ok
  | electStart i => exact inv_electStart h i (hp.2.1 rfl)
  | electSend i o =>
    have ho := hp.2.resolve_right (by simp)
    exact inv_electSend h i o hp.1 ho.1 ho.2
  | electCrash i o => exact inv_electCrash h i o hp.1 (hp.2.resolve_right (by simp)).1
  | electFail i o => exact absurd hp.1 (by simp)
  | becomeLeader i q => 
    refine inv_becomeLeader h i q hp.1 hp.2.1 hp.2.2.1 (fun v hv => ?_)
    have := hp.2.2.2 v hv
    by_cases hvi : v = i
    · rw [if_pos hvi] at this ⊢; exact this.resolve_left (by simp)
    · rw [if_neg hvi] at this ⊢; exact this
  | voteBegin i t cand claim => exact inv_voteBegin h i t cand claim hp.1 hp.2.1 hp.2.2
  | voteEnd i f ok grantOk => exact inv_voteEnd h i f ok grantOk hp.1 hp.2.1 (hp.2.2 rfl)
  | voteDrop i f => exact inv_voteDrop h i f
  | voteAgain i t cand => exact inv_voteAgain h i t cand hp.2.1 hp.2.2.1 hp.2.2.2
  | propose i ds => exact inv_propose h i ds hp.1 hp.2
  | changeConf i c => exact inv_changeConf h i c hp.1 hp.2.1 hp.2.2
  | sendAE i prev cnt c => exact inv_sendAE h i prev cnt c hp.1 hp.2.1 hp.2.2
  | recvAE i t prev pt es c ok gone => exact inv_recvAE h i t prev pt es c ok gone hp.1 hp.2.1
  | disk i => exact inv_disk h i
  | commit i k q => exact inv_commit h i k q hp.1 hp.2.1 hp.2.2.1 hp.2.2.2.1 hp.2.2.2.2.1 hp.2.2.2.2.2
  | apply i => exact inv_apply h i hp
  | crash i => exact inv_crash h i
  | saveSnap i k => exact inv_saveSnap h i k hp.1 hp.2.1 hp.2.2.1 (hp.2.2.2 rfl)
  | sendIS i => exact inv_sendIS h i
  | recvIS i t K ok => exact inv_recvIS h i t K ok hp.1 hp.2
  | copied i => exact inv_copied h i hp.1 (hp.2 rfl)
  | loaded i => exact inv_loaded h i hp
  | dlDrop i => exact inv_dlDrop h i

theorem inv_steps {s s' : Sys N D} (h : Inv c0 s) (hs : Steps ⟨true, true, true, true, true⟩ c0 s s') :
    Inv c0 s' := by
  induction hs with
  | refl => exact h
  | tail _ h2 ih => exact inv_step ih h2

theorem inv_reachable {s : Sys N D} (h : Reachable ⟨true, true, true, true, true⟩ c0 s) : Inv c0 s :=
  inv_steps (inv_init c0) h

end Braft.Raft
