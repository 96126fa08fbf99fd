import Verif.Raft.Model
/-
The combinatorial heart of the safety proof: from facts about who voted, who acknowledged and
how logs were built (`CoreOK`) derive leader completeness and adjacency of configurations.
Nothing here mentions steps or node states.
-/
set_option linter.unusedVariables false
set_option linter.unusedSimpArgs false
set_option linter.unusedSectionVars false

namespace Braft.Raft
variable {N D : Type} [DecidableEq N]

/-! ### Logs and prefixes -/

theorem snoc_cases {α : Type} (l : List α) : l = [] ∨ ∃ l' e, l = l' ++ [e] := by
  rcases List.eq_nil_or_concat l with h | ⟨l', e, h⟩
  · exact Or.inl h
  · exact Or.inr ⟨l', e, by rw [h, List.concat_eq_append]⟩

theorem lastTerm_concat (l : Log N D) (e : Entry N D) : lastTerm (l ++ [e]) = e.term := by
  simp [lastTerm]

theorem lastTerm_append_of_ne {l es : Log N D} (h : es ≠ []) :
    lastTerm (l ++ es) = lastTerm es := by
  rcases snoc_cases es with h' | ⟨es', e, rfl⟩
  · exact absurd h' h
  · rw [← List.append_assoc, lastTerm_concat, lastTerm_concat]

theorem confOf_concat (c0 : Conf N) (l : Log N D) (e : Entry N D) :
    confOf c0 (l ++ [e]) = (e.conf?).getD (confOf c0 l) := by
  simp [confOf]

theorem pref_total {a b l : Log N D} (ha : a <+: l) (hb : b <+: l) : a <+: b ∨ b <+: a := by
  rcases Nat.le_total a.length b.length with h | h
  · exact Or.inl (List.prefix_of_prefix_length_le ha hb h)
  · exact Or.inr (List.prefix_of_prefix_length_le hb ha h)

theorem pref_antisymm {a b : Log N D} (h1 : a <+: b) (h2 : b <+: a) : a = b :=
  h1.eq_of_length_le h2.length_le

/-- A prefix of `l ++ [e]` is all of it or a prefix of `l`. -/
theorem pref_concat {a l : Log N D} {e : Entry N D} (h : a <+: l ++ [e]) :
    a = l ++ [e] ∨ a <+: l := by
  by_cases hl : a.length ≤ l.length
  · exact Or.inr (List.prefix_of_prefix_length_le h (List.prefix_append _ _) hl)
  · left
    apply h.eq_of_length_le
    simp
    omega

theorem pref_of_ne_concat {a l : Log N D} {e : Entry N D} (h : a <+: l ++ [e])
    (hne : a ≠ l ++ [e]) : a <+: l := by
  rcases pref_concat h with h | h
  · exact absurd h hne
  · exact h

/-- The last place where the configuration changes in a log. -/
theorem lastChange (c0 : Conf N) (A : Log N D) :
    (∀ A', A' <+: A → confOf c0 A' = confOf c0 A) ∨
    ∃ P0 e, P0 ++ [e] <+: A ∧ confOf c0 (P0 ++ [e]) ≠ confOf c0 P0 ∧
      ∀ A', P0 ++ [e] <+: A' → A' <+: A → confOf c0 A' = confOf c0 A := by
  generalize hn : A.length = n
  induction n generalizing A with
  | zero =>
    left
    have : A = [] := List.length_eq_zero_iff.mp hn
    subst this
    intro A' h
    have : A' = [] := List.prefix_nil.mp h
    rw [this]
  | succ n ih =>
    rcases snoc_cases A with h | ⟨l, e, h⟩
    · subst h; simp at hn
    · subst h
      by_cases hc : confOf c0 (l ++ [e]) = confOf c0 l
      · rcases ih l (by simpa using hn) with h | ⟨P0, e', h1, h2, h3⟩
        · left
          intro A' hA
          rcases pref_concat hA with h' | h'
          · rw [h']
          · rw [h A' h', hc]
        · right
          refine ⟨P0, e', h1.trans (List.prefix_append _ _), h2, ?_⟩
          intro A' hPA hA
          rcases pref_concat hA with h' | h'
          · rw [h']
          · rw [h3 A' hPA h', hc]
      · right
        refine ⟨l, e, List.prefix_refl _, hc, ?_⟩
        intro A' hPA hA
        rw [pref_antisymm hA hPA]

/-! ### Configurations whose quorums always meet -/

def Adj (c d : Conf N) : Prop :=
  ∀ S T : N → Bool, c.Quorum S → d.Quorum T → ∃ v, S v = true ∧ T v = true

theorem Adj.refl (c : Conf N) : Adj c c := by
  intro S T hS hT
  obtain ⟨v, _, h1, h2⟩ := Ballot.majority_inter hS.1 hT.1
  exact ⟨v, h1, h2⟩

theorem Adj.symm {c d : Conf N} (h : Adj c d) : Adj d c := by
  intro S T hS hT
  obtain ⟨v, h1, h2⟩ := h T S hT hS
  exact ⟨v, h2, h1⟩

/-! ### The facts -/

/-- `K` was built by the winner `r` from its log at the election, with entries of its term. -/
def Orig (r : Elec N D) (K : Log N D) : Prop :=
  ∃ es, K = r.log ++ es ∧ es ≠ [] ∧ ∀ e ∈ es, e.term = r.term

theorem Orig.term {r : Elec N D} {K : Log N D} (h : Orig r K) : lastTerm K = r.term := by
  obtain ⟨es, rfl, hne, h⟩ := h
  rw [lastTerm_append_of_ne hne]
  rcases snoc_cases es with h' | ⟨l, e, rfl⟩
  · exact absurd h' hne
  · rw [lastTerm_concat]; exact h e (by simp)

theorem Orig.pref {r : Elec N D} {K : Log N D} (h : Orig r K) : r.log <+: K := by
  obtain ⟨es, rfl, _, _⟩ := h
  exact List.prefix_append _ _

structure Facts (N D : Type) where
  elections : List (Elec N D)
  created : Log N D → Prop
  ack : Nat → N → Log N D → Prop

variable (F : Facts N D) (c0 : Conf N)

/-- `K` is directly committed: a quorum of the configuration in force at its last entry
acknowledged it in the term of that entry. -/
def Direct (K : Log N D) : Prop :=
  F.created K ∧ ∃ S, (confOf c0 K).Quorum S ∧
    ∀ v, S v = true → ∃ M, F.ack (lastTerm K) v M ∧ K <+: M

/-- Among the given elections one of a later term was won by a log without `K`. -/
def Culprit (es : List (Elec N D)) (K : Log N D) : Prop :=
  ∃ r ∈ es, lastTerm K < r.term ∧ ¬ K <+: r.log

structure CoreOK : Prop where
  chain : ∀ K1 K2, F.created K1 → F.created K2 → lastTerm K1 = lastTerm K2 →
    K1 <+: K2 ∨ K2 <+: K1
  closed : ∀ K K', F.created K → K' <+: K → K' ≠ [] → F.created K'
  mono : ∀ K K', F.created K → K' <+: K → lastTerm K' ≤ lastTerm K
  origin : ∀ K, F.created K → ∃ r ∈ F.elections, Orig r K
  elog : ∀ J r, F.elections[J]? = some r → ∀ K, K ≠ [] → K <+: r.log →
    F.created K ∧ ∃ r' ∈ F.elections.take J, Orig r' K
  elt : ∀ r ∈ F.elections, lastTerm r.log < r.term
  change : ∀ K0 e, F.created (K0 ++ [e]) → confOf c0 (K0 ++ [e]) ≠ confOf c0 K0 →
    ∃ Q, Q ≠ [] ∧ Q <+: K0 ∧ lastTerm Q = e.term ∧ Direct F c0 Q ∧
      (∀ K', Q <+: K' → K' <+: K0 → confOf c0 K' = confOf c0 Q) ∧
      Adj (confOf c0 Q) (confOf c0 (K0 ++ [e]))
  elect : ∀ J r, F.elections[J]? = some r → ∃ S, (confOf c0 r.log).Quorum S ∧
    ∀ v, S v = true → ∀ t M, F.ack t v M → t < r.term → ∀ K, K ≠ [] → K <+: M →
      K <+: r.log ∨ Culprit (F.elections.take J) K

variable {F} {c0}

theorem Direct.ne (hF : CoreOK F c0) {K : Log N D} (h : Direct F c0 K) : K ≠ [] := by
  intro hK
  subst hK
  obtain ⟨r, _, es, h1, h2, _⟩ := hF.origin _ h.1
  have := congrArg List.length h1
  simp at this
  exact h2 (List.length_eq_zero_iff.mp (by omega))

/-- Two logs whose quorums must be compared: `A` and `B` hold each other's committed entries. -/
theorem adj_logs (hF : CoreOK F c0) {A B : Log N D}
    (hA : ∀ K, K ≠ [] → K <+: A → F.created K) (hB : ∀ K, K ≠ [] → K <+: B → F.created K)
    (h1 : ∀ Q, Q <+: B → Q ≠ B → Direct F c0 Q → Q <+: A)
    (h2 : ∀ P Q, P <+: A → ¬ P <+: B → Q <+: P → lastTerm Q = lastTerm P → Direct F c0 Q →
      Q <+: B) :
    Adj (confOf c0 A) (confOf c0 B) := by
  -- what to do once `B` holds the last change of `A`
  have case1 : ∀ PA, (PA = [] ∨ ∃ P0 e, PA = P0 ++ [e] ∧ confOf c0 (P0 ++ [e]) ≠ confOf c0 P0) →
      PA <+: B → (∀ A', PA <+: A' → A' <+: A → confOf c0 A' = confOf c0 A) →
      (PA <+: A) → Adj (confOf c0 A) (confOf c0 B) := by
    intro PA hPA hPB hconf hPA'
    have hPAc : confOf c0 PA = confOf c0 A := hconf PA (List.prefix_refl _) hPA'
    rcases lastChange c0 B with hn | ⟨P0, e, hP1, hP2, hP3⟩
    · rw [← hn PA hPB, hPAc]; exact Adj.refl _
    · by_cases hle : P0 ++ [e] <+: PA
      · rw [← hP3 PA hle hPB, hPAc]; exact Adj.refl _
      · have hlt : PA <+: P0 := by
          rcases pref_total hPB hP1 with h | h
          · rcases pref_concat h with h' | h'
            · exact absurd (h' ▸ List.prefix_refl _) hle
            · exact h'
          · exact absurd h hle
        obtain ⟨Q, hQne, hQ0, hQt, hQd, hQc, hQa⟩ :=
          hF.change P0 e (hB _ (by simp) hP1) hP2
        have hQB : Q <+: B := (hQ0.trans (List.prefix_append _ _)).trans hP1
        have hQnB : Q ≠ B := by
          intro h
          have e1 := hQ0.length_le
          have e2 := hP1.length_le
          simp at e2; subst h; omega
        have hQA : Q <+: A := h1 Q hQB hQnB hQd
        have hPQ : PA <+: Q := by
          rcases pref_total hPB hQB with h | h
          · exact h
          · rcases hPA with h0 | ⟨PA0, eA, rfl, hchg⟩
            · subst h0; exact List.nil_prefix
            · by_cases heq : Q = PA0 ++ [eA]
              · rw [heq]; exact List.prefix_refl _
              · exfalso
                have hq : Q <+: PA0 := pref_of_ne_concat h heq
                apply hchg
                rw [hQc _ h hlt, hQc _ hq ((List.prefix_append _ _).trans hlt)]
        rw [← hconf Q hPQ hQA, ← hP3 _ (List.prefix_refl _) hP1]
        exact hQa
  rcases lastChange c0 A with hn | ⟨PA0, eA, hPA1, hPA2, hPA3⟩
  · exact case1 [] (Or.inl rfl) List.nil_prefix (fun A' _ h => hn A' h) List.nil_prefix
  · by_cases hAB : PA0 ++ [eA] <+: B
    · exact case1 _ (Or.inr ⟨PA0, eA, rfl, hPA2⟩) hAB hPA3 hPA1
    · have hcA := hA _ (by simp) hPA1
      obtain ⟨QA, hQAne, hQA0, hQAt, hQAd, hQAc, hQAa⟩ := hF.change PA0 eA hcA hPA2
      have hQAP : QA <+: PA0 ++ [eA] := hQA0.trans (List.prefix_append _ _)
      have hQAB : QA <+: B := h2 _ QA hPA1 hAB hQAP (by rw [hQAt, lastTerm_concat]) hQAd
      have hcPA : confOf c0 (PA0 ++ [eA]) = confOf c0 A := hPA3 _ (List.prefix_refl _) hPA1
      -- no change of `B` after `QA`
      have hdone : confOf c0 B = confOf c0 QA → Adj (confOf c0 A) (confOf c0 B) := by
        intro h
        rw [h, ← hcPA]; exact hQAa.symm
      rcases lastChange c0 B with hn | ⟨P0, e, hP1, hP2, hP3⟩
      · exact hdone (hn QA hQAB).symm
      · by_cases hle : P0 ++ [e] <+: QA
        · exact hdone (hP3 QA hle hQAB).symm
        · have hQAlt : QA <+: P0 := by
            rcases pref_total hQAB hP1 with h | h
            · rcases pref_concat h with h' | h'
              · exact absurd (h' ▸ List.prefix_refl _) hle
              · exact h'
            · exact absurd h hle
          exfalso
          have hcB := hB _ (by simp) hP1
          obtain ⟨QB, hQBne, hQB0, hQBt, hQBd, hQBc, hQBa⟩ := hF.change P0 e hcB hP2
          have hQBP : QB <+: P0 ++ [e] := hQB0.trans (List.prefix_append _ _)
          have hQBB : QB <+: B := hQBP.trans hP1
          have hQBnB : QB ≠ B := by
            intro h
            have e1 := hQB0.length_le
            have e2 := hP1.length_le
            simp at e2; subst h; omega
          have hQBA : QB <+: A := h1 QB hQBB hQBnB hQBd
          have hQBlt : QB <+: PA0 ++ [eA] := by
            rcases pref_total hQBA hPA1 with h | h
            · exact h
            · exact absurd (h.trans hQBB) hAB
          have hterm : eA.term = e.term := by
            rcases pref_total hQAB hQBB with h | h
            · have a1 := hF.mono QB QA hQBd.1 h
              have a2 := hF.mono _ QB hcA hQBlt
              rw [lastTerm_concat] at a2
              omega
            · have a1 := hF.mono QA QB hQAd.1 h
              have a2 := hF.mono _ QA hcB (hQAlt.trans (List.prefix_append _ _))
              rw [lastTerm_concat] at a2
              omega
          rcases hF.chain _ _ hcA hcB (by rw [lastTerm_concat, lastTerm_concat, hterm]) with h | h
          · exact hAB (h.trans hP1)
          · have hne : P0 ++ [e] ≠ PA0 ++ [eA] := by
              intro h'; rw [h'] at hP1; exact hAB hP1
            have hb : P0 ++ [e] <+: PA0 := pref_of_ne_concat h hne
            apply hP2
            rw [hQAc _ (hQAlt.trans (List.prefix_append _ _)) hb,
              hQAc _ hQAlt ((List.prefix_append _ _).trans hb)]

/-- The record a prefix of `K` stems from is not later than the record of `K`. -/
theorem orig_prefix (hF : CoreOK F c0) {I : Nat} {rI : Elec N D}
    (hI : F.elections[I]? = some rI) {K Q : Log N D} (hK : Orig rI K) (hQ : Q <+: K)
    (hne : Q ≠ []) :
    ∃ I' r', I' ≤ I ∧ F.elections[I']? = some r' ∧ Orig r' Q := by
  rcases pref_total hQ hK.pref with h | h
  · obtain ⟨_, r', hr', ho⟩ := hF.elog I rI hI Q hne h
    obtain ⟨I', hI', hEq⟩ := List.getElem_of_mem hr'
    rw [List.getElem_take] at hEq; subst hEq
    rw [List.length_take, Nat.lt_min] at hI'
    refine ⟨I', _, by omega, ?_, ho⟩
    simp [List.getElem?_eq_getElem hI'.2]
  · by_cases heq : Q = rI.log
    · have h' : Q <+: rI.log := by rw [heq]; exact List.prefix_refl _
      obtain ⟨_, r', hr', ho⟩ := hF.elog I rI hI Q hne h'
      obtain ⟨I', hI', hEq⟩ := List.getElem_of_mem hr'
      rw [List.getElem_take] at hEq; subst hEq
      rw [List.length_take, Nat.lt_min] at hI'
      refine ⟨I', _, by omega, ?_, ho⟩
      simp [List.getElem?_eq_getElem hI'.2]
    · refine ⟨I, rI, Nat.le_refl _, hI, ?_⟩
      obtain ⟨es, rfl, _, hes⟩ := hK
      obtain ⟨es', rfl⟩ := h
      refine ⟨es', rfl, ?_, ?_⟩
      · intro h; subst h; simp at heq
      · intro e he
        have : es' <+: es := (List.prefix_append_right_inj _).mp hQ
        exact hes e (this.subset he)

theorem leader_complete_aux (hF : CoreOK F c0) : ∀ (m l J I : Nat) (K : Log N D) (r rI : Elec N D), J + I = m → K.length = l →
    F.elections[J]? = some r → F.elections[I]? = some rI → Orig rI K → Direct F c0 K →
    lastTerm K < r.term → K <+: r.log := by
  intro m
  induction m using Nat.strongRecOn with
  | ind m ihm =>
  intro l
  induction l using Nat.strongRecOn with
  | ind l ihl =>
  intro J I K r rI hm hl hJ hI hO hD hlt
  refine Classical.byContradiction fun hno => ?_
  have ih : ∀ J' I' K' r' rI', J' + I' ≤ J + I → K'.length < K.length →
      F.elections[J']? = some r' → F.elections[I']? = some rI' → Orig rI' K' → Direct F c0 K' →
      lastTerm K' < r'.term → K' <+: r'.log := by
    intro J' I' K' r' rI' hle hlen a b c d e
    rcases Nat.lt_or_ge (J' + I') (J + I) with h | h
    · exact ihm (J' + I') (by omega) _ J' I' K' r' rI' rfl rfl a b c d e
    · exact ihl K'.length (by omega) J' I' K' r' rI' (by omega) rfl a b c d e
  have ih' : ∀ J' I' K' r' rI', J' + I' < J + I →
      F.elections[J']? = some r' → F.elections[I']? = some rI' → Orig rI' K' → Direct F c0 K' →
      lastTerm K' < r'.term → K' <+: r'.log := by
    intro J' I' K' r' rI' h a b c d e
    exact ihm (J' + I') (by omega) _ J' I' K' r' rI' rfl rfl a b c d e
  have hAc : ∀ K', K' ≠ [] → K' <+: r.log → F.created K' :=
    fun K' h1 h2 => (hF.elog J r hJ K' h1 h2).1
  have hBc : ∀ K', K' ≠ [] → K' <+: K → F.created K' :=
    fun K' h1 h2 => hF.closed K K' hD.1 h2 h1
  have hadj : Adj (confOf c0 r.log) (confOf c0 K) := by
    apply adj_logs hF hAc hBc
    · intro Q hQ hQK hQd
      obtain ⟨I', r', hI', hrI', hO'⟩ := orig_prefix hF hI hO hQ (hQd.ne hF)
      have hlen : Q.length < K.length := by
        rcases Nat.lt_or_ge Q.length K.length with h | h
        · exact h
        · exact absurd (hQ.eq_of_length_le h) hQK
      have hmt := hF.mono K Q hD.1 hQ
      exact ih J I' Q r r' (by omega) hlen hJ hrI' hO' hQd (by omega)
    · intro P Q hPA hPB hQP hQt hQd
      have hPne : P ≠ [] := by
        intro h; subst h; exact hPB List.nil_prefix
      obtain ⟨hPc, rA, hrA, hOA⟩ := hF.elog J r hJ P hPne hPA
      obtain ⟨jA, hjA, hrA'⟩ := List.getElem_of_mem hrA
      rw [List.getElem_take] at hrA'; rw [List.length_take, Nat.lt_min] at hjA
      have hjA' : F.elections[jA]? = some rA := by
        rw [List.getElem?_eq_getElem hjA.2, hrA']
      rcases Nat.lt_trichotomy (lastTerm P) (lastTerm K) with h | h | h
      · obtain ⟨I', r', hI', hrI', hO'⟩ := orig_prefix hF hjA' hOA hQP (hQd.ne hF)
        have := ih' I I' Q rI r' (by omega) hI hrI' hO' hQd (by rw [← hO.term]; omega)
        exact this.trans hO.pref
      · rcases hF.chain _ _ hPc hD.1 h with h' | h'
        · exact absurd h' hPB
        · exact absurd (h'.trans hPA) hno
      · have := ih' jA I K rA rI (by omega) hjA' hI hO hD (by rw [← hOA.term]; exact h)
        exact absurd ((this.trans hOA.pref).trans hPA) hno
  obtain ⟨S1, hS1, hv1⟩ := hF.elect J r hJ
  obtain ⟨_, S2, hS2, hv2⟩ := id hD
  obtain ⟨v, hvs1, hvs2⟩ := hadj S1 S2 hS1 hS2
  obtain ⟨M, hM, hKM⟩ := hv2 v hvs2
  rcases hv1 v hvs1 _ M hM hlt K (Direct.ne hF hD) hKM with h | ⟨r', hr', hlt', hno'⟩
  · exact hno h
  · obtain ⟨j, hj, hr''⟩ := List.getElem_of_mem hr'
    rw [List.getElem_take] at hr''; rw [List.length_take, Nat.lt_min] at hj
    have hj' : F.elections[j]? = some r' := by rw [List.getElem?_eq_getElem hj.2, hr'']
    exact hno' (ih' j I K r' rI (by omega) hj' hI hO hD hlt')

/-- Leader completeness. -/
theorem leader_complete (hF : CoreOK F c0) {K : Log N D} (hD : Direct F c0 K) {r : Elec N D}
    (hr : r ∈ F.elections) (hlt : lastTerm K < r.term) : K <+: r.log := by
  obtain ⟨rI, hrI, hO⟩ := hF.origin K hD.1
  obtain ⟨J, hJ, hJ'⟩ := List.getElem_of_mem hr
  obtain ⟨I, hI, hI'⟩ := List.getElem_of_mem hrI
  exact leader_complete_aux hF _ _ J I K r rI rfl rfl
    (by rw [List.getElem?_eq_getElem hJ, hJ']) (by rw [List.getElem?_eq_getElem hI, hI']) hO hD hlt

/-- Winners of one term used configurations whose quorums meet. -/
theorem adj_same_term (hF : CoreOK F c0) {r1 r2 : Elec N D} (h1 : r1 ∈ F.elections)
    (h2 : r2 ∈ F.elections) (ht : r1.term = r2.term) :
    Adj (confOf c0 r1.log) (confOf c0 r2.log) := by
  obtain ⟨J1, hJ1, hJ1'⟩ := List.getElem_of_mem h1
  obtain ⟨J2, hJ2, hJ2'⟩ := List.getElem_of_mem h2
  have e1 : F.elections[J1]? = some r1 := by rw [List.getElem?_eq_getElem hJ1, hJ1']
  have e2 : F.elections[J2]? = some r2 := by rw [List.getElem?_eq_getElem hJ2, hJ2']
  have l1 := hF.elt r1 h1
  have l2 := hF.elt r2 h2
  apply adj_logs hF (fun K a b => (hF.elog J1 r1 e1 K a b).1)
    (fun K a b => (hF.elog J2 r2 e2 K a b).1)
  · intro Q hQ _ hQd
    apply leader_complete hF hQd h1
    have hne : r2.log ≠ [] := by
      intro h; rw [h] at hQ; exact (hQd.ne hF) (List.prefix_nil.mp hQ)
    have := hF.mono r2.log Q (hF.elog J2 r2 e2 _ hne (List.prefix_refl _)).1 hQ
    omega
  · intro P Q hP _ hQP _ hQd
    apply leader_complete hF hQd h2
    have hQ := hQP.trans hP
    have hne : r1.log ≠ [] := by
      intro h; rw [h] at hQ; exact (hQd.ne hF) (List.prefix_nil.mp hQ)
    have := hF.mono r1.log Q (hF.elog J1 r1 e1 _ hne (List.prefix_refl _)).1 hQ
    omega

/-- Two directly committed logs are comparable. -/
theorem direct_total (hF : CoreOK F c0) {K1 K2 : Log N D} (h1 : Direct F c0 K1)
    (h2 : Direct F c0 K2) : K1 <+: K2 ∨ K2 <+: K1 := by
  rcases Nat.lt_trichotomy (lastTerm K1) (lastTerm K2) with h | h | h
  · obtain ⟨r, hr, hO⟩ := hF.origin K2 h2.1
    exact Or.inl ((leader_complete hF h1 hr (by rw [← hO.term]; exact h)).trans hO.pref)
  · exact hF.chain _ _ h1.1 h2.1 h
  · obtain ⟨r, hr, hO⟩ := hF.origin K1 h1.1
    exact Or.inr ((leader_complete hF h2 hr (by rw [← hO.term]; exact h)).trans hO.pref)

end Braft.Raft
