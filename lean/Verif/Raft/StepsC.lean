import Verif.Raft.StepsB
/-
Preservation of the invariant: a leader appends its own entries, changes the configuration, takes
office.
-/
set_option linter.unusedVariables false
set_option linter.unusedSimpArgs false
set_option linter.unusedSectionVars false

namespace Braft.Raft
variable {N D : Type} [DecidableEq N] [DecidableEq D]

theorem mem_newLogs {l K : Log N D} {es : List (Entry N D)} :
    K ∈ newLogs l es ↔ ∃ es', es' ≠ [] ∧ es' <+: es ∧ K = l ++ es' := by
  simp only [newLogs, List.mem_map, List.mem_range]
  constructor
  · rintro ⟨k, hk, rfl⟩
    refine ⟨es.take (k + 1), ?_, List.take_prefix _ _, rfl⟩
    intro h
    have := congrArg List.length h
    simp at this
    rw [this] at hk; simp at hk
  · rintro ⟨es', hne, hp, rfl⟩
    have h1 := hp.length_le
    have h2 : 0 < es'.length := List.length_pos_iff.mpr hne
    refine ⟨es'.length - 1, by omega, ?_⟩
    rw [show es'.length - 1 + 1 = es'.length by omega, ← prefix_take hp]

theorem lastTerm_own {l es : Log N D} {t : Nat} (hne : es ≠ []) (h : ∀ e ∈ es, e.term = t) :
    lastTerm (l ++ es) = t := by
  rw [lastTerm_append_of_ne hne]
  rcases snoc_cases es with h' | ⟨es', e, rfl⟩
  · exact absurd h' hne
  · rw [lastTerm_concat]; exact h e (by simp)

/-- A prefix of `l ++ es` is a prefix of `l` or `l` with some of `es`. -/
theorem pref_append_cases {K l es : Log N D} (h : K <+: l ++ es) :
    K <+: l ∨ ∃ es', es' ≠ [] ∧ es' <+: es ∧ K = l ++ es' := by
  rcases pref_total h (List.prefix_append l es) with h' | ⟨es', rfl⟩
  · exact Or.inl h'
  · by_cases hne : es' = []
    · subst hne; left; simp
    · exact Or.inr ⟨es', hne, (List.prefix_append_right_inj _).mp h, rfl⟩

theorem drain_push (d : Log N D) (es : List (Entry N D)) : drain d (es.map .push) = d ++ es := by
  induction es generalizing d with
  | nil => simp [drain]
  | cons e es ih =>
    have : drain d ((e :: es).map .push) = drain (d ++ [e]) (es.map .push) := rfl
    rw [this, ih, List.append_assoc]; rfl

theorem vok_push {P : Log N D → Op N D → Prop} (d : Log N D) (es : List (Entry N D))
    (h : ∀ es' e, es' ++ [e] <+: es → P (d ++ es') (.push e)) : VOk P d (es.map .push) := by
  induction es generalizing d with
  | nil => trivial
  | cons e es ih =>
    refine ⟨by have := h [] e (by simp); simpa using this, ?_⟩
    apply ih
    intro es' e' hp
    have := h (e :: es') e' (by simpa using hp)
    simpa [applyOp] using this

theorem ext_created (i : N) (g : Glob N D) (ks : List (Log N D)) :
    Ext i g { g with created := ks ++ g.created } where
  msgs := fun _ h => h
  hist := fun _ _ h => h
  histj := fun _ _ => rfl
  created := fun _ h => by simp [h]
  elections := ⟨[], by simp, by simp⟩
  votes := fun _ h => h
  votesn := fun _ h => Or.inl h
  acks := fun _ h => h
  commits := fun _ h => h

/-- A leader appends entries of its term; a change of configuration must be justified. -/
theorem inv0_sysAppend {c0 : Conf N} {s : Sys N D} (h : Inv0 c0 s) (i : N)
    (es : List (Entry N D)) (hr : (s.node i).role = .leader) (hne : es ≠ [])
    (ht : ∀ e ∈ es, e.term = (s.node i).term)
    (hchg : ∀ K0 e, K0 ++ [e] ∈ newLogs (s.node i).log es →
      confOf c0 (K0 ++ [e]) ≠ confOf c0 K0 →
      ∃ Q, Q ≠ [] ∧ Q <+: K0 ∧ lastTerm Q = e.term ∧ Direct (facts s.g) c0 Q ∧
      (∀ K', Q <+: K' → K' <+: K0 → confOf c0 K' = confOf c0 Q) ∧
      Adj (confOf c0 Q) (confOf c0 (K0 ++ [e]))) :
    Inv0 c0 (sysAppend s i es) := by
  have hn := h.n i
  have hE := ext_created i s.g (newLogs (s.node i).log es)
  obtain ⟨hlead, r, hrm, hri, hrt, es0, hes0, hest0⟩ := hn.lead hr
  have hglog := hn.glog
  have hnt : ∀ K ∈ newLogs (s.node i).log es, lastTerm K = (s.node i).term := by
    intro K hK
    obtain ⟨es', h1, h2, rfl⟩ := mem_newLogs.mp hK
    exact lastTerm_own h1 (fun e he => ht e (h2.subset he))
  have hnp : ∀ K ∈ newLogs (s.node i).log es, K <+: (s.node i).log ++ es ∧ (s.node i).log <+: K := by
    intro K hK
    obtain ⟨es', h1, h2, rfl⟩ := mem_newLogs.mp hK
    exact ⟨(List.prefix_append_right_inj _).mpr h2, List.prefix_append _ _⟩
  have hcr : ∀ K, K ∈ (sysAppend s i es).g.created ↔
      K ∈ newLogs (s.node i).log es ∨ K ∈ s.g.created := by
    intro K; simp [sysAppend]
  -- every prefix of the new log is created
  have hgood' : ∀ K, K ≠ [] → K <+: (s.node i).log ++ es → K ∈ newLogs (s.node i).log es ∨
      (K <+: (s.node i).log ∧ K ∈ s.g.created) := by
    intro K h1 h2
    rcases pref_append_cases h2 with h' | ⟨es', h3, h4, h5⟩
    · exact Or.inr ⟨h', hglog.1 K h1 h'⟩
    · exact Or.inl (mem_newLogs.mpr ⟨es', h3, h4, h5⟩)
  have hg' : GInv c0 (sysAppend s i es).g := {
    chain := by
      intro K1 h1 K2 h2 he
      rcases (hcr K1).mp h1 with h1 | h1 <;> rcases (hcr K2).mp h2 with h2 | h2
      · exact pref_total (hnp K1 h1).1 (hnp K2 h2).1
      · right
        exact (hlead K2 h2 (by rw [← he, hnt K1 h1])).trans (hnp K1 h1).2
      · left
        exact (hlead K1 h1 (by rw [he, hnt K2 h2])).trans (hnp K2 h2).2
      · exact h.g.chain K1 h1 K2 h2 he
    closed := by
      intro K hK K' h1 h2
      rcases (hcr K).mp hK with hK | hK
      · rcases hgood' K' h1 (h2.trans (hnp K hK).1) with h' | h'
        · exact (hcr K').mpr (Or.inl h')
        · exact (hcr K').mpr (Or.inr h'.2)
      · exact (hcr K').mpr (Or.inr (h.g.closed K hK K' h1 h2))
    mono := by
      intro K hK K' h2
      rcases (hcr K).mp hK with hK | hK
      · rw [hnt K hK]
        by_cases hK' : K' = []
        · subst hK'; exact Nat.zero_le _
        rcases hgood' K' hK' (h2.trans (hnp K hK).1) with h' | h'
        · rw [hnt K' h']; exact Nat.le_refl _
        · exact (hglog.pref h.g.toGBase h'.1).2
      · exact h.g.mono K hK K' h2
    origin := by
      intro K hK
      rcases (hcr K).mp hK with hK | hK
      · obtain ⟨es', h1, h2, rfl⟩ := mem_newLogs.mp hK
        refine ⟨r, hrm, es0 ++ es', by rw [hes0, List.append_assoc], by simp [h1], ?_⟩
        intro e he
        rcases List.mem_append.mp he with he | he
        · rw [hest0 e he, hrt]
        · rw [ht e (h2.subset he), hrt]
      · exact h.g.origin K hK
    elog := by
      intro J r' hJ K h1 h2
      obtain ⟨h3, h4⟩ := h.g.elog J r' hJ K h1 h2
      exact ⟨(hcr K).mpr (Or.inr h3), h4⟩
    elt := h.g.elt
    change := by
      intro K0 e hK hc
      have key : ∃ Q, Q ≠ [] ∧ Q <+: K0 ∧ lastTerm Q = e.term ∧ Direct (facts s.g) c0 Q ∧
        (∀ K', Q <+: K' → K' <+: K0 → confOf c0 K' = confOf c0 Q) ∧
        Adj (confOf c0 Q) (confOf c0 (K0 ++ [e])) := by
        rcases (hcr _).mp hK with hK | hK
        · exact hchg K0 e hK hc
        · exact h.g.change K0 e hK hc
      obtain ⟨Q, h1, h2, h3, h4, h5⟩ := key
      exact ⟨Q, h1, h2, h3, h4.ext hE.created hE.acks, h5⟩
    el := h.g.el
    vuniq := h.g.vuniq
    vk := h.g.vk
    vinv := h.g.vinv
    ak := by
      intro t v M hM
      obtain ⟨h1, h2, L, h3, h4⟩ := h.g.ak t v M hM
      exact ⟨h1, h2, L, hE.created L h3, h4⟩
    rv := h.g.rv
    vr := h.g.vr
    ae := fun t prev pt es c hm => (h.g.ae t prev pt es c hm).ext hE
    ar := fun t v m hm => (h.g.ar t v m hm).ext hE
    is := fun t K hm => (h.g.is t K hm).ext hE
    com := by
      intro K hK
      obtain ⟨h1, K', h2, h3⟩ := h.g.com K hK
      exact ⟨hE.created K h1, K', h2.ext hE.created hE.acks, h3⟩
    app := h.g.app
    euniq := h.g.euniq }
  refine inv0_upd h i hE hg' ?_ ?_
  · have hmem := hn.mem
    have hvp : ∀ es' e, es' ++ [e] <+: es →
        (s.node i).log ++ es' ++ [e] ∈ newLogs (s.node i).log es := by
      intro es' e hp
      exact mem_newLogs.mpr ⟨es' ++ [e], by simp, hp, by simp⟩
    exact {
      pt := hn.pt
      t1 := hn.t1
      mem := by
        show (s.node i).log ++ es = drain (s.node i).disk
          ((s.node i).queue ++ es.map .push ++ [.ackL ((s.node i).log ++ es)])
        rw [drain_append, drain_append, ← hmem, drain_push]; rfl
      hd := hn.hd
      gd := hn.gd.ext hE
      vgood := by
        show VOk _ (s.node i).disk
          ((s.node i).queue ++ es.map .push ++ [.ackL ((s.node i).log ++ es)])
        rw [VOk_append, VOk_append, drain_append, ← hmem, drain_push]
        have hfull : GoodAt (sysAppend s i es).g (s.node i).term ((s.node i).log ++ es) := by
          refine ⟨fun K h1 h2 => ?_, by rw [lastTerm_own hne ht]; exact Nat.le_refl _⟩
          rcases hgood' K h1 h2 with h' | h'
          · exact (hcr K).mpr (Or.inl h')
          · exact (hcr K).mpr (Or.inr h'.2)
        refine ⟨⟨hn.vgood.imp (fun d op _ hp => hp.ext hE), vok_push _ _ ?_⟩, hfull.1, trivial⟩
        intro es' e hp
        exact (hfull.pref hg'.toGBase (by
          show (s.node i).log ++ es' ++ [e] <+: (s.node i).log ++ es
          rw [List.append_assoc]
          exact (List.prefix_append_right_inj _).mpr hp)).1
      lt := by
        show lastTerm ((s.node i).log ++ es) ≤ (s.node i).term
        rw [lastTerm_own hne ht]; exact Nat.le_refl _
      gh := fun O hO => (hn.gh O hO).ext hE
      rh := fun O hO => (hn.rh O hO).ext hE
      vrel := by
        show VOk _ (s.node i).disk
          ((s.node i).queue ++ es.map .push ++ [.ackL ((s.node i).log ++ es)])
        rw [VOk_append, VOk_append]
        refine ⟨⟨hn.vrel.imp (fun d op _ hp => hp.ext hE), vok_push _ _ ?_⟩, Rel.refl _ _, trivial⟩
        intro es' e hp K _ hK
        exact Or.inl (hK.trans (List.prefix_append _ _))
      vmark := by
        show VOk _ (s.node i).disk
          ((s.node i).queue ++ es.map .push ++ [.ackL ((s.node i).log ++ es)])
        rw [VOk_append, VOk_append, drain_append, ← hmem, drain_push]
        refine ⟨⟨hn.vmark.imp (fun d op _ hp => (hp.ext hE).upd (Nat.le_refl _)
          (fun _ => List.prefix_append _ _) (fun hr => ⟨hr, rfl⟩)),
          vok_push _ _ (fun _ _ _ => trivial)⟩, ⟨by simp [hne], List.prefix_refl _, ?_, ?_⟩, trivial⟩
        · exact (hcr _).mpr (Or.inl (mem_newLogs.mpr ⟨es, hne, List.prefix_refl _, rfl⟩))
        · intro _; exact lastTerm_own hne ht
      lead := by
        intro _
        refine ⟨?_, r, hrm, hri, hrt, es0 ++ es, ?_, ?_⟩
        · intro K hK hKt
          show K <+: (s.node i).log ++ es
          rcases (hcr K).mp hK with hK | hK
          · exact (hnp K hK).1
          · exact (hlead K hK hKt).trans (List.prefix_append _ _)
        · show (s.node i).log ++ es = _
          rw [hes0, List.append_assoc]
        · intro e he
          rcases List.mem_append.mp he with he | he
          · exact hest0 e he
          · exact ht e he
      el := hn.el
      v1 := hn.v1
      vmem := hn.vmem
      pv := hn.pv
      mv := hn.mv
      elec := hn.elec
      cand := by
        intro hc
        have hc' : (s.node i).role = .candidate := hc
        rw [hr] at hc'; cases hc'
      vf := hn.vf
      cl := by
        have := hn.cl
        show (s.node i).commit ≤ ((s.node i).log ++ es).length
        simp; omega
      cc := by
        show Committed _ (s.node i).term (((s.node i).log ++ es).take (s.node i).commit)
        rw [List.take_append_of_le_length hn.cl]
        exact hn.cc.ext hE
      ap := by
        have := hn.ap
        show (s.node i).applied ≤ ((s.node i).log ++ es).length
        simp; omega
      ac := by
        show Committed _ (s.node i).term (((s.node i).log ++ es).take (s.node i).applied)
        rw [List.take_append_of_le_length hn.ap]
        exact hn.ac.ext hE
      sn := hn.sn.trans (List.prefix_append _ _)
      sp := hn.sp
      cs := hn.cs.ext hE
      sa := hn.sa
      dlc := fun K hK => ⟨(hn.dlc K hK).1.ext hE, (hn.dlc K hK).2⟩
      dlf := hn.dlf
      smi := by
        show (s.node i).sm = ((s.node i).log ++ es).take (s.node i).applied
        rw [List.take_append_of_le_length hn.ap]; exact hn.smi }
  · intro j hj hjr K hK
    rcases (hcr K).mp hK with hK | hK
    · right
      rw [hnt K hK]
      intro he
      obtain ⟨_, r', hrm', hri', hrt', _⟩ := (h.n j).lead hjr
      have : r = r' := by
        have hp := h.g.euniq
        rw [List.pairwise_iff_getElem] at hp
        obtain ⟨a, ha, hra⟩ := List.getElem_of_mem hrm
        obtain ⟨b, hb, hrb⟩ := List.getElem_of_mem hrm'
        rcases Nat.lt_trichotomy a b with hab | hab | hab
        · have := hp a b ha hb hab
          rw [hra, hrb] at this; omega
        · subst hab; rw [← hra, ← hrb]
        · have := hp b a hb ha hab
          rw [hra, hrb] at this; omega
      subst this
      exact hj (hri'.symm.trans hri)
    · exact Or.inl hK

theorem inv_sysAppend {c0 : Conf N} {s : Sys N D} (h : Inv0 c0 s) (i : N)
    (hown : ∀ j, j ≠ i → (s.node j).role = .leader → OwnOK (s.node j))
    (es : List (Entry N D)) (hr : (s.node i).role = .leader) (hne : es ≠ [])
    (ht : ∀ e ∈ es, e.term = (s.node i).term)
    (hchg : ∀ K0 e, K0 ++ [e] ∈ newLogs (s.node i).log es →
      confOf c0 (K0 ++ [e]) ≠ confOf c0 K0 →
      ∃ Q, Q ≠ [] ∧ Q <+: K0 ∧ lastTerm Q = e.term ∧ Direct (facts s.g) c0 Q ∧
      (∀ K', Q <+: K' → K' <+: K0 → confOf c0 K' = confOf c0 Q) ∧
      Adj (confOf c0 Q) (confOf c0 (K0 ++ [e])))
    (hci : lastTerm (((s.node i).log ++ es).take (lastConfIdx ((s.node i).log ++ es))) =
      (s.node i).term) :
    Inv c0 (sysAppend s i es) where
  toInv0 := inv0_sysAppend h i es hr hne ht hchg
  own := fun j hj => by
    by_cases hji : j = i
    · subst hji
      simp only [sysAppend, updF_same, appendOwn]
      exact ⟨hci, lastTerm_own hne ht⟩
    · simp only [sysAppend, updF_other _ _ hji] at hj ⊢
      exact hown j hji hj

/-! ### The last configuration entry -/

theorem lastConfIdx_le (l : Log N D) : lastConfIdx l ≤ l.length := Nat.sub_le _ _

theorem lastConfIdx_conf {l : Log N D} {e : Entry N D} (h : e.conf?.isSome) :
    lastConfIdx (l ++ [e]) = l.length + 1 := by
  have h' : e.conf?.isNone = false := by
    cases hc : e.conf? with
    | none => rw [hc] at h; cases h
    | some c => rfl
  simp [lastConfIdx, h']

theorem lastConfIdx_data {l : Log N D} {e : Entry N D} (h : e.conf? = none) :
    lastConfIdx (l ++ [e]) = lastConfIdx l := by
  have := lastConfIdx_le l
  simp [lastConfIdx, h]

theorem lastConfIdx_datas {l es : Log N D} (h : ∀ e ∈ es, e.conf? = none) :
    lastConfIdx (l ++ es) = lastConfIdx l := by
  induction es generalizing l with
  | nil => simp
  | cons e es ih =>
    have : l ++ e :: es = l ++ [e] ++ es := by simp
    rw [this, ih (fun x hx => h x (by simp [hx])), lastConfIdx_data (h e (by simp))]

/-- The configuration does not change behind the last configuration entry. -/
theorem confOf_const (c0 : Conf N) : ∀ (l A : Log N D), l.take (lastConfIdx l) <+: A → A <+: l →
    confOf c0 A = confOf c0 l := by
  intro l
  generalize hn : l.length = n
  induction n generalizing l with
  | zero =>
    intro A _ h
    have hl : l = [] := List.length_eq_zero_iff.mp hn
    subst hl
    rw [List.prefix_nil.mp h]
  | succ n ih =>
    intro A h1 h2
    rcases snoc_cases l with h | ⟨l', e, rfl⟩
    · subst h; simp at hn
    · cases hc : e.conf? with
      | none =>
        rw [lastConfIdx_data hc, List.take_append_of_le_length (lastConfIdx_le _)] at h1
        have he : confOf c0 (l' ++ [e]) = confOf c0 l' := by rw [confOf_concat, hc]; rfl
        rcases pref_concat h2 with h' | h'
        · rw [h']
        · rw [he]; exact ih l' (by simpa using hn) A h1 h'
      | some c =>
        rw [lastConfIdx_conf (by rw [hc]; rfl)] at h1
        rw [List.take_of_length_le (by simp)] at h1
        rw [pref_antisymm h2 h1]

theorem confOf_datas (c0 : Conf N) {l es : Log N D} (h : ∀ e ∈ es, e.conf? = none) :
    confOf c0 (l ++ es) = confOf c0 l := by
  induction es generalizing l with
  | nil => simp
  | cons e es ih =>
    have : l ++ e :: es = l ++ [e] ++ es := by simp
    rw [this, ih (fun x hx => h x (by simp [hx])), confOf_concat, h e (by simp)]; rfl

theorem inv_propose {c0 : Conf N} {s : Sys N D} (h : Inv c0 s) (i : N) (ds : List D)
    (hr : (s.node i).role = .leader) (hne : ds ≠ []) :
    Inv c0 (sysAppend s i (ds.map (fun d => ⟨(s.node i).term, .data d⟩))) := by
  have hdata : ∀ e ∈ ds.map (fun d => (⟨(s.node i).term, .data d⟩ : Entry N D)),
      e.conf? = none := by
    intro e he
    obtain ⟨d, _, rfl⟩ := List.mem_map.mp he
    rfl
  apply inv_sysAppend h.toInv0 i (fun j _ hj => h.own j hj) _ hr
  · simpa using hne
  · intro e he
    obtain ⟨d, _, rfl⟩ := List.mem_map.mp he
    rfl
  · intro K0 e hK hc
    exfalso
    apply hc
    obtain ⟨es', h1, h2, h3⟩ := mem_newLogs.mp hK
    rcases snoc_cases es' with h' | ⟨es'', e', rfl⟩
    · exact absurd h' h1
    · rw [← List.append_assoc] at h3
      obtain ⟨_, he⟩ := List.append_inj' h3 rfl
      obtain rfl : e = e' := by simpa using he
      rw [confOf_concat, hdata e (h2.subset (by simp))]; rfl
  · rw [lastConfIdx_datas hdata, List.take_append_of_le_length (lastConfIdx_le _)]
    exact (h.own i hr).1

/-! ### Configuration changes -/

theorem adj_of_confStep {c c' : Conf N} (h : confStepOk c c' = true) : Adj c c' := by
  unfold confStepOk at h
  intro S T hS hT
  by_cases ho : c.old = []
  · rw [if_pos ho] at h
    simp only [Bool.or_eq_true, Bool.and_eq_true, decide_eq_true_eq, List.any_eq_true] at h
    rcases h with ⟨h1, h3⟩ | ⟨h1, h2⟩
    · rcases h3 with ⟨x, hx, h3⟩ | ⟨x, hx, hxn, h3⟩
      · have hp : c.peers.Perm (x :: c'.peers) := (List.perm_cons_erase hx).trans (h3.symm.cons x)
        obtain ⟨v, _, h4, h5⟩ := Ballot.majority_inter_add hp hT.1 hS.1
        exact ⟨v, h5, h4⟩
      · have hp : c'.peers.Perm (x :: c.peers) := (List.perm_cons_erase hx).trans (h3.cons x)
        obtain ⟨v, _, h4, h5⟩ := Ballot.majority_inter_add hp hS.1 hT.1
        exact ⟨v, h4, h5⟩
    · have hTo := hT.2 h2
      rw [h1] at hTo
      obtain ⟨v, _, h4, h5⟩ := Ballot.majority_inter hS.1 hTo
      exact ⟨v, h4, h5⟩
  · rw [if_neg ho] at h
    simp only [decide_eq_true_eq] at h
    have := hT.1
    rw [h.2] at this
    obtain ⟨v, _, h4, h5⟩ := Ballot.majority_inter hS.1 this
    exact ⟨v, h4, h5⟩

theorem inv_changeConf {c0 : Conf N} {s : Sys N D} (h : Inv c0 s) (i : N) (c : Conf N)
    (hr : (s.node i).role = .leader) (hl : lastConfIdx (s.node i).log ≤ (s.node i).commit)
    (hc : confStepOk (confOf c0 (s.node i).log) c = true) :
    Inv c0 (sysAppend s i [⟨(s.node i).term, .conf c⟩]) := by
  have hn := h.n i
  have hown := h.own i hr
  have hpos := leader_term_pos h.g.toGBase hn hr
  apply inv_sysAppend h.toInv0 i (fun j _ hj => h.own j hj) _ hr (by simp)
  · intro e he
    simp only [List.mem_singleton] at he
    rw [he]
  · intro K0 e hK _
    have hKe : K0 = (s.node i).log ∧ e = ⟨(s.node i).term, .conf c⟩ := by
      obtain ⟨es', h1, h2, h3⟩ := mem_newLogs.mp hK
      have h4 : es' = [⟨(s.node i).term, .conf c⟩] := by
        rcases pref_concat (l := []) h2 with h' | h'
        · exact h'
        · exact absurd (List.prefix_nil.mp h') h1
      rw [h4] at h3
      obtain ⟨h5, h6⟩ := List.append_inj' h3 rfl
      exact ⟨h5, by simpa using h6⟩
    obtain ⟨rfl, rfl⟩ := hKe
    have hpre : (s.node i).log.take (lastConfIdx (s.node i).log) <+:
        (s.node i).log.take (s.node i).commit := by
      apply List.prefix_of_prefix_length_le (List.take_prefix _ _) (List.take_prefix _ _)
      simp; omega
    have hcomm := hn.cc.pre hpre
    rcases hcomm with h0 | ⟨K1, hK1, hK1t, hpK1⟩
    · have := hown.1; rw [h0] at this; simp [lastTerm] at this; omega
    · obtain ⟨hK1c, K', hD, hK't, hK1K'⟩ := h.g.com K1 hK1
      have hm := h.g.mono K1 hK1c _ hpK1
      rw [hown.1] at hm
      have hK'l : K' <+: (s.node i).log := (hn.lead hr).1 K' hD.1 (by omega)
      refine ⟨K', Direct.ne h.g.toGBase.core hD, hK'l, ?_, hD, ?_, ?_⟩
      · show lastTerm K' = (s.node i).term; omega
      · intro K'' h1 h2
        rw [confOf_const c0 _ K' (hpK1.trans hK1K') hK'l,
          confOf_const c0 _ K'' ((hpK1.trans hK1K').trans h1) h2]
      · rw [confOf_const c0 _ K' (hpK1.trans hK1K') hK'l, confOf_concat]
        exact adj_of_confStep hc
  · rw [lastConfIdx_conf (by rfl), List.take_of_length_le (by simp), lastTerm_concat]

/-! ### Taking office -/

theorem take_append_len {α : Type} {l l' : List α} {k : Nat} (h : k ≤ l.length) :
    (l ++ l').take k = l.take k := List.take_append_of_le_length h

theorem inv_becomeLeader {c0 : Conf N} {s : Sys N D} (h : Inv c0 s) (i : N) (q : List N)
    (hr : (s.node i).role = .candidate) (hready : (s.node i).ready = true)
    (hq : (s.node i).bconf.Quorum (fun v => decide (v ∈ q)))
    (hv : ∀ v ∈ q, if v = i then ((s.node i).pterm = (s.node i).term ∧ (s.node i).pvote = some i)
        else Msg.vr (s.node i).term v i ∈ s.g.msgs) :
    Inv c0 (sysAppend (lead s i) i [⟨(s.node i).term, .conf (confOf c0 (s.node i).log)⟩]) := by
  have hn := h.n i
  obtain ⟨hlt, hbc, hrd⟩ := hn.cand hr
  obtain ⟨hpt, hpv, hnoack⟩ := hrd hready
  have hglog := hn.glog
  let r : Elec N D := ⟨(s.node i).term, i, (s.node i).log⟩
  have hE : Ext i s.g (lead s i).g := {
    msgs := fun _ h => h
    hist := fun _ _ h => h
    histj := fun _ _ => rfl
    created := fun _ h => h
    elections := ⟨[r], rfl, by simp [r]⟩
    votes := fun _ h => h
    votesn := fun _ h => Or.inl h
    acks := fun _ h => h
    commits := fun _ h => h }
  have hel : (lead s i).g.elections = s.g.elections ++ [r] := rfl
  have hgetJ : ∀ J r', (lead s i).g.elections[J]? = some r' →
      (s.g.elections[J]? = some r' ∧ J < s.g.elections.length) ∨
      (J = s.g.elections.length ∧ r' = r) := by
    intro J r' hJ
    rw [hel] at hJ
    rcases Nat.lt_trichotomy J s.g.elections.length with h1 | h1 | h1
    · left; rw [List.getElem?_append_left h1] at hJ; exact ⟨hJ, h1⟩
    · right
      subst h1
      rw [List.getElem?_append_right (Nat.le_refl _)] at hJ
      simp at hJ
      exact ⟨rfl, hJ.symm⟩
    · rw [List.getElem?_append_right (by omega)] at hJ
      rw [List.getElem?_eq_none (by simp; omega)] at hJ
      cases hJ
  have htake : ∀ J, J ≤ s.g.elections.length →
      (lead s i).g.elections.take J = s.g.elections.take J := by
    intro J hJ; rw [hel]; exact take_append_len hJ
  have hvote : ∀ v ∈ q, ∃ k, ⟨(s.node i).term, v, i, k⟩ ∈ s.g.votes := by
    intro v hvq
    have := hv v hvq
    by_cases hvi : v = i
    · subst hvi
      rw [← hpt]; exact hn.pv _ hpv
    · rw [if_neg hvi] at this
      exact h.g.vr _ _ _ this
  have hbase : GBase c0 (lead s i).g := {
    chain := h.g.chain
    closed := h.g.closed
    mono := h.g.mono
    origin := fun K hK => by
      obtain ⟨r', h1, h2⟩ := h.g.origin K hK
      exact ⟨r', hE.emem r' h1, h2⟩
    elog := by
      intro J r' hJ K h1 h2
      rcases hgetJ J r' hJ with ⟨h3, h4⟩ | ⟨rfl, rfl⟩
      · rw [htake J (Nat.le_of_lt h4)]
        exact h.g.elog J r' h3 K h1 h2
      · rw [htake _ (Nat.le_refl _), List.take_length]
        have hKc := hglog.1 K h1 h2
        exact ⟨hKc, h.g.origin K hKc⟩
    elt := by
      intro r' hr'
      rw [hel] at hr'
      rcases List.mem_append.mp hr' with h1 | h1
      · exact h.g.elt r' h1
      · simp only [List.mem_singleton] at h1
        rw [h1]; exact hlt
    change := by
      intro K0 e hK hc
      obtain ⟨Q, h1, h2, h3, h4, h5⟩ := h.g.change K0 e hK hc
      exact ⟨Q, h1, h2, h3, h4.ext hE.created hE.acks, h5⟩
    el := by
      intro J r' hJ
      rcases hgetJ J r' hJ with ⟨h3, h4⟩ | ⟨rfl, rfl⟩
      · rw [htake J (Nat.le_of_lt h4)]
        exact h.g.el J r' h3
      · rw [htake _ (Nat.le_refl _), List.take_length]
        refine ⟨fun v => decide (v ∈ q), by rw [← hbc]; exact hq, ?_, ?_⟩
        · intro v hvq
          exact hvote v (by simpa using hvq)
        · intro v hvq t M hM hlt' K hK hKM
          obtain ⟨k, hk⟩ := hvote v (by simpa using hvq)
          rcases h.g.vinv _ hk t M hM hlt' K hK hKM with ⟨O, hO, hKO⟩ | hcul
          · exact hn.rlog h.g.toGBase hO K hK hKO
          · exact Or.inr (hcul.mono (fun r' hr' => List.mem_of_mem_take hr'))
    vuniq := h.g.vuniq
    vk := fun v hv => by
      have := h.g.vk v hv
      rw [hel]; simp; omega
    vinv := by
      intro v hv' t M hM hlt' K hK hKM
      rw [htake _ (h.g.vk v hv')]
      exact h.g.vinv v hv' t M hM hlt' K hK hKM
    ak := h.g.ak
    rv := h.g.rv
    vr := h.g.vr
    ae := fun t prev pt es c hm => (h.g.ae t prev pt es c hm).ext hE
    ar := fun t v m hm => (h.g.ar t v m hm).ext hE
    is := fun t K hm => (h.g.is t K hm).ext hE
    com := by
      intro K hK
      obtain ⟨h1, K', h2, h3⟩ := h.g.com K hK
      exact ⟨h1, K', h2.ext hE.created hE.acks, h3⟩
    app := h.g.app }
  -- nobody won this term before
  have hfresh : ∀ r' ∈ s.g.elections, r'.term ≠ (s.node i).term := by
    intro r' hr' he
    have hadj := adj_same_term hbase.core (r1 := r') (r2 := r) (hE.emem r' hr')
      (by show r ∈ (lead s i).g.elections; rw [hel]; simp) he
    obtain ⟨J, hJ, hJ'⟩ := List.getElem_of_mem hr'
    obtain ⟨S, hS, hSv, _⟩ := h.g.el J r' (by rw [List.getElem?_eq_getElem hJ, hJ'])
    obtain ⟨v, hv1, hv2⟩ := hadj S (fun v => decide (v ∈ q)) hS (by
      show (confOf c0 (s.node i).log).Quorum _
      rw [← hbc]; exact hq)
    obtain ⟨k1, hk1⟩ := hSv v hv1
    obtain ⟨k2, hk2⟩ := hvote v (by simpa using hv2)
    have := h.g.vuniq _ hk1 _ hk2 he rfl
    have := (hn.el r' hr' this).2 hr
    omega
  have hginv : GInv c0 (lead s i).g := {
    toGBase := hbase
    euniq := by
      rw [hel, List.pairwise_append]
      refine ⟨h.g.euniq, by simp, ?_⟩
      intro a ha b hb
      simp only [List.mem_singleton] at hb
      rw [hb]; exact hfresh a ha }
  have hni : NodeInv c0 (lead s i).g i { s.node i with role := .leader, ready := false } := {
    pt := hn.pt
    t1 := hn.t1
    mem := hn.mem
    hd := hn.hd
    gd := hn.gd.ext hE
    vgood := hn.vgood.imp (fun d op _ hp => hp.ext hE)
    lt := hn.lt
    gh := fun O hO => (hn.gh O hO).ext hE
    rh := fun O hO => (hn.rh O hO).ext hE
    vrel := hn.vrel.imp (fun d op _ hp => hp.ext hE)
    vmark := hn.vmark.imp (fun d op hop hp => by
      cases op with
      | push => trivial
      | pop => trivial
      | snap => trivial
      | ackF t M c => exact (hp.ext hE : Mark (lead s i).g (s.node i) d (.ackF t M c))
      | ackL M =>
        exfalso
        simp only [noAckL, List.all_eq_true] at hnoack
        have := hnoack _ hop
        simp at this)
    lead := by
      intro _
      refine ⟨?_, r, by rw [hel]; simp, rfl, rfl, [], by simp [r], by simp⟩
      intro K hK hKt
      exfalso
      obtain ⟨r', h1, h2⟩ := h.g.origin K hK
      exact hfresh r' h1 (by rw [← h2.term]; exact hKt)
    el := by
      intro r' hr' hi'
      refine ⟨?_, by intro hc; simp at hc⟩
      rw [hel] at hr'
      rcases List.mem_append.mp hr' with h1 | h1
      · exact (hn.el r' h1 hi').1
      · simp only [List.mem_singleton] at h1
        rw [h1]; show (s.node i).term ≤ (s.node i).pterm; omega
    v1 := hn.v1
    vmem := hn.vmem
    pv := hn.pv
    mv := hn.mv
    elec := hn.elec
    cand := by intro hc; simp at hc
    vf := hn.vf
    cl := hn.cl
    cc := hn.cc.ext hE
    ap := hn.ap
    ac := hn.ac.ext hE
    sn := hn.sn
    sp := hn.sp
    cs := hn.cs.ext hE
    sa := hn.sa
    dlc := fun K hK => ⟨(hn.dlc K hK).1.ext hE, (hn.dlc K hK).2⟩
    dlf := fun hne => by have := hn.dlf hne; rw [hr] at this; cases this
    smi := hn.smi }
  have h0 : Inv0 c0 (lead s i) :=
    inv0_upd h.toInv0 i hE hginv hni (fun j _ _ K hK => Or.inl hK)
  have hnode : (lead s i).node i = { s.node i with role := .leader, ready := false } := by
    simp [lead, updF]
  apply inv_sysAppend h0 i
  · intro j hj hjr
    have : (lead s i).node j = s.node j := by simp [lead, updF, hj]
    rw [this] at hjr ⊢
    exact h.own j hjr
  · rw [hnode]
  · simp
  · intro e he
    simp only [List.mem_singleton] at he
    rw [he, hnode]
  · intro K0 e hK hc
    exfalso
    apply hc
    rw [hnode] at hK
    obtain ⟨es', h1, h2, h3⟩ := mem_newLogs.mp hK
    have h4 : es' = [⟨(s.node i).term, .conf (confOf c0 (s.node i).log)⟩] := by
      rcases pref_concat (l := []) h2 with h' | h'
      · exact h'
      · exact absurd (List.prefix_nil.mp h') h1
    rw [h4] at h3
    obtain ⟨h5, h6⟩ := List.append_inj' h3 rfl
    have h7 : e = ⟨(s.node i).term, .conf (confOf c0 (s.node i).log)⟩ := by simpa using h6
    rw [confOf_concat, h7, h5]; rfl
  · rw [hnode, lastConfIdx_conf (by rfl), List.take_of_length_le (by simp), lastTerm_concat]

end Braft.Raft
