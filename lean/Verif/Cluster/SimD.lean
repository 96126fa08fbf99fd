import Verif.Cluster.SimC
import Verif.Props.Raft
/-
Simulation of AppendEntries and InstallSnapshot requests, and of a step of the cluster.
-/
set_option linter.unusedVariables false
set_option linter.unusedSimpArgs false
set_option linter.unusedSectionVars false

namespace Braft.Cl
open Braft.Raft
variable {N D : Type} [DecidableEq N] [DecidableEq D] {c0 : Conf N} {g : Glob N D}
  {ev : List (Ev N D)} {i : N} {c : Srv N D} {n : NodeSt N D}

theorem NR.follow (h : NR c0 g ev i c n) (hr : n.role = roleOf c.state) (l : Option N)
    (hl : ∀ x, l = some x → Ev.lead x c.term ∈ ev) : NR c0 g ev i { c with leaderId := l } n :=
  { h with
    role := Or.inl hr
    el := fun f hf => (h.el f hf).congr rfl rfl rfl rfl rfl rfl
    lid := hl
    lead := fun hx => { h.lead hx with }
    repl := fun f hf => ⟨(h.repl f hf).1, (h.repl f hf).2.1,
      fun x1 x2 => ((h.repl f hf).2.2 x1 x2).congr rfl (Nat.le_refl _)⟩ }

theorem NR.lastLeader (h : NR c0 g ev i c n) (l : Option N) :
    NR c0 g ev i { c with lastLeader := l } n :=
  { h with
    el := fun f hf => (h.el f hf).congr rfl rfl rfl rfl rfl rfl
    lead := fun hx => { h.lead hx with }
    repl := fun f hf => ⟨(h.repl f hf).1, (h.repl f hf).2.1,
      fun x1 x2 => ((h.repl f hf).2.2 x1 x2).congr rfl (Nat.le_refl _)⟩ }

/-- A candidate whose own vote would do is not in a term that has a leader already: it could write
everything to disk, vote for itself and become leader too. -/
theorem no_rival {a : Sys N D} (hi : Inv c0 a) (hr : (a.node i).role = .candidate)
    (he : (a.node i).elect = some (a.node i).term)
    (hq : (a.node i).bconf.Quorum (fun v => decide (v = i))) {r : Elec N D}
    (hm : r ∈ a.g.elections) (ht : r.term = (a.node i).term) : False := by
  generalize hk : (a.node i).queue.length = k
  induction k generalizing a with
  | zero =>
    have hq0 : (a.node i).queue = [] := List.eq_nil_of_length_eq_zero hk
    have s1 : Sim1 c0 i a (eff c0 a (.electSend i (a.node i).disk)) := sim_act i _ rfl
      ⟨he, Or.inl ⟨(hi.n i).hd, by rw [hq0]; rfl⟩⟩
    have hn : (eff c0 a (.electSend i (a.node i).disk)).node i = { a.node i with
        elect := none, ready := true, pterm := (a.node i).term, pvote := some i } := by
      simp [eff, updF_same]
    have hi1 := s1.inv hi
    have hm1 := s1.sub.elections r hm
    generalize eff c0 a (.electSend i (a.node i).disk) = b at hn hi1 hm1
    have s2 : Sim1 c0 i b (eff c0 b (.becomeLeader i [i])) := sim_act i _ rfl (by
      rw [pre, hn]
      refine ⟨hr, rfl, ?_, ?_⟩
      · have e : (fun v => decide (v ∈ [i])) = (fun v : N => decide (v = i)) := by
          funext v; simp
        rw [e]; exact hq
      · intro v hv
        rw [List.mem_singleton] at hv
        rw [if_pos hv]
        exact Or.inr ⟨rfl, rfl⟩)
    have hm2 := s2.sub.elections r hm1
    have hnew : (⟨(b.node i).term, i, (b.node i).log⟩ : Elec N D) ∈
        (eff c0 b (.becomeLeader i [i])).g.elections := by
      simp [eff, sysAppend, Raft.lead]
    have := Props.elections_unique (s2.inv hi1).g hm2 hnew (by rw [ht, hn])
    have hx := ((hi.n i).el r hm (by rw [this])).2 hr
    omega
  | succ k ih =>
    have hne : (a.node i).queue ≠ [] := by
      intro e; rw [e] at hk; cases hk
    have s1 : Sim1 c0 i a (eff c0 a (.disk i)) := sim_act i _ rfl hne
    obtain ⟨o, q, hoq⟩ : ∃ o q, (a.node i).queue = o :: q := by
      cases hx : (a.node i).queue with
      | nil => exact absurd hx hne
      | cons o q => exact ⟨o, q, rfl⟩
    have hn : ((eff c0 a (.disk i)).node i).role = (a.node i).role ∧
        ((eff c0 a (.disk i)).node i).elect = (a.node i).elect ∧
        ((eff c0 a (.disk i)).node i).term = (a.node i).term ∧
        ((eff c0 a (.disk i)).node i).bconf = (a.node i).bconf ∧
        ((eff c0 a (.disk i)).node i).queue = q := by
      show ((diskStep a i).node i).role = _ ∧ ((diskStep a i).node i).elect = _ ∧
        ((diskStep a i).node i).term = _ ∧ ((diskStep a i).node i).bconf = _ ∧
        ((diskStep a i).node i).queue = q
      unfold diskStep
      dsimp only
      rw [hoq]
      cases o with
      | push => simp [updF_same]
      | pop => simp [updF_same]
      | snap => simp [updF_same]
      | ackF => dsimp only; split <;> simp [updF_same]
      | ackL => dsimp only; split <;> simp [updF_same]
    obtain ⟨n1, n2, n3, n4, n5⟩ := hn
    rw [hoq, List.length_cons] at hk
    exact ih (s1.inv hi) (by rw [n1]; exact hr) (by rw [n2, n3]; exact he) (by rw [n4]; exact hq)
      (s1.sub.elections r hm) (by rw [n3]; exact ht) (by rw [n5]; omega)

/-- `check_step_down` for a request of the leader of the term. -/
theorem sim_check {a : Sys N D} (hi : Inv c0 a) (h : NR c0 a.g ev i c (a.node i)) (t : Nat) (srv : N)
    (ok : Bool) (ht : c.term ≤ t) (hl : Ev.lead srv t ∈ ev) (her : ER a.g ev (Ev.lead srv t)) :
    ∃ a', Sim1 c0 i a a' ∧ a'.g = a.g ∧
      NR c0 a'.g ((sCheckStepDown i c t srv ok).2 ++ ev) i (sCheckStepDown i c t srv ok).1 (a'.node i) ∧
      (∀ e ∈ (sCheckStepDown i c t srv ok).2, ER a'.g ((sCheckStepDown i c t srv ok).2 ++ ev) e) ∧
      (sCheckStepDown i c t srv ok).1.term = t ∧ (sCheckStepDown i c t srv ok).1.state = .follower ∧
      (sCheckStepDown i c t srv ok).1.snap = c.snap := by
  have key : ∃ a', Sim1 c0 i a a' ∧ a'.g = a.g ∧ ∃ c1, c1 = (if c.term < t ∨ c.state ≠ .follower ∨
      c.leaderId = none then sStepDown c t ok else c) ∧ NR c0 a'.g ev i c1 (a'.node i) ∧
      c1.term = t ∧ c1.state = .follower ∧ c1.snap = c.snap ∧
      (c1.leaderId = none → (a'.node i).role = .follower) := by
    by_cases hx : c.term < t ∨ c.state ≠ .follower ∨ c.leaderId = none
    · have hq : c.term < t ∨ ∀ f ∈ c.elects, f.term = c.term →
          ¬ (a.node i).bconf.Quorum (fun v => decide (v = i)) := by
        rcases Nat.lt_or_ge c.term t with hlt | hge
        · exact Or.inl hlt
        · right
          intro f hf he hQ
          have hte : c.term = t := by omega
          obtain ⟨r, r1, r2, r3⟩ := her
          obtain ⟨n1, n2, n3, n4⟩ := (h.el f hf).now he
          have hrole : (a.node i).role = .candidate := by
            cases hs : c.state with
            | leader => rw [hs] at n2; cases n2
            | transferring => rw [hs] at n2; cases n2
            | candidate => exact cand_role h hs
            | follower => exact (h.pend hs f hf he).1.resolve_right (fun hn => hn hQ)
          exact no_rival hi hrole (by rw [n1, h.term, he]) hQ r1 (by rw [r3, h.term, hte])
      refine ⟨eff c0 a (.raiseTerm i t ok), sim_act i _ rfl ?_, rfl, _, rfl, ?_⟩
      · show (a.node i).term ≤ t
        rw [h.term]; exact ht
      · rw [if_pos hx]
        refine ⟨?_, by rw [sStepDown_term]; omega, rfl, rfl, fun _ => ?_⟩
        · simp only [eff, setNode, updF_same]
          exact h.stepDown t ok hq
        · simp only [eff, setNode, updF_same, stepDown_eq]
    · refine ⟨a, Sim1.refl _ _ _, rfl, _, rfl, ?_⟩
      rw [if_neg hx]
      refine ⟨h, ?_, ?_, rfl, fun hn => absurd (Or.inr (Or.inr hn)) hx⟩
      · have : ¬ c.term < t := fun e => hx (Or.inl e)
        omega
      · exact Decidable.not_not.mp (fun e => hx (Or.inr (Or.inl e)))
  obtain ⟨a', s1, s2, c1, e, s3, s4, s5, s6, s7⟩ := key
  refine ⟨a', s1, s2, ?_⟩
  unfold sCheckStepDown
  dsimp only
  rw [← e]
  by_cases hn : c1.leaderId = none
  · rw [if_pos hn]
    refine ⟨?_, ?_, s4, s5, s6⟩
    · refine (s3.follow (by rw [s7 hn, s5]; rfl) (some srv) ?_).mono (GSub.refl _) (fun e he => List.mem_append_right _ he)
      intro x hx; cases hx; rw [s4]; exact hl
    · intro x hx
      simp only [List.mem_singleton] at hx
      subst hx
      rw [s4]
      exact List.mem_append_right _ hl
  · rw [if_neg hn]
    exact ⟨by simpa using s3, by simp, s4, s5, s6⟩

theorem aeStepDown_same {n : NodeSt N D} {t : Nat} (ok : Bool) (ht : n.term = t)
    (hr : n.role = .follower) : aeStepDown n t ok = n := by
  unfold aeStepDown
  rw [if_neg]
  rintro (h | h)
  · omega
  · exact h hr

/-- The previous entry of a request that matches is within the log. -/
theorem ae_sit {s : Sys N D} (h : Inv c0 s) {t prev pt : Nat} {es : List (Entry N D)} {cm : Nat}
    (hm : Msg.ae t prev pt es cm ∈ s.g.msgs) (ht : (s.node i).term = t) :
    (0 < prev → 0 < pt) ∧ (prev = 0 → pt = 0) ∧
    (prev ≤ (s.node i).log.length → termAt (s.node i).log prev = pt →
      ∃ L P, P.length = prev ∧ AESit s.g (s.node i).log L P es t) := by
  have hn := h.n i
  have hgb := h.g.toGBase
  obtain ⟨L, hL, hLt, P, hPl, hPt, hML, hcm⟩ := h.g.ae _ _ _ _ _ hm
  have hLg := good_of_created hgb hL
  rw [hLt] at hLg
  refine ⟨fun hp => ?_, fun hp => ?_, fun hp1 hp2 => ?_⟩
  · have hPne : P ≠ [] := by
      intro e; subst e; simp only [List.length_nil] at hPl; omega
    have := created_pos hgb ((hLg.pref hgb ((List.prefix_append _ _).trans hML)).1 P hPne
      (List.prefix_refl _))
    omega
  · have : P = [] := List.eq_nil_of_length_eq_zero (by omega)
    rw [← hPt, this]; rfl
  · have hW : GoodAt s.g t (s.node i).log := by rw [← ht]; exact hn.glog
    have hPW : P <+: (s.node i).log := by
      have : P = (s.node i).log.take prev := by
        apply good_eq hgb
        · exact (hLg.pref hgb ((List.prefix_append _ _).trans hML)).1
        · exact (hW.pref hgb (List.take_prefix _ _)).1
        · simp; omega
        · rw [hPt, ← termAt_take hp1, hp2]
      rw [this]; exact List.take_prefix _ _
    exact ⟨L, P, hPl, hL, hLt, hML, hW, hPW⟩

theorem max_commit (h : NR c0 g ev i c n) (hr : c.state = .follower) (k : Nat) :
    NR c0 g ev i (sSetCommitted c k) { n with commit := max n.commit k } := by
  have := h.setCommitted k
  rw [if_neg (fun e => by rw [← leads_role h, hr] at e; cases e)] at this
  exact this

/-- The part of an AppendEntries request after `check_step_down`. -/
def sAppend2 (i : N) (c : Srv N D) (t : Nat) (srv : N) (prev prevTerm : Nat)
    (es : List (Entry N D)) (cm : Nat) (gone : Bool) : Srv N D × List (CMsg N D) :=
  if es ≠ [] ∧ c.dl.isSome then (c, [])
  else if (if gone then 0 else termAt c.log prev) ≠ prevTerm then
    (c, [.aeRes t srv i false c.term (prev + es.length) es.length])
  else if es = [] then
    (sSetCommitted c (min cm prev), [.aeRes t srv i true c.term prev 0])
  else if prev + es.length ≤ c.applied then
    (sSetCommitted c (min cm (prev + es.length)),
      [.aeRes t srv i true c.term (prev + es.length) es.length])
  else
    let js := resolveJobs c.log prev es
    ({ c with
        log := drainJobs c.log js,
        queue := c.queue ++ js ++
          [.follower c.term (prev + es.length) es.length cm srv] }, [])

theorem sim_append2 {a : Sys N D} (hi : Inv c0 a) (h : NR c0 a.g ev i c (a.node i)) (t : Nat)
    (srv : N) (prev pt : Nat) (es : List (Entry N D)) (cm : Nat) (gone : Bool)
    (ht : c.term = t) (hr : c.state = .follower) (hld : c.leaderId ≠ none) (hm : Msg.ae t prev pt es cm ∈ a.g.msgs)
    (hgone : gone = true → 0 < prev ∧ prev < c.snap.length) :
    ∃ a', Sim1 c0 i a a' ∧
      NR c0 a'.g ev i (sAppend2 i c t srv prev pt es cm gone).1 (a'.node i) ∧
      ∀ m ∈ (sAppend2 i c t srv prev pt es cm gone).2, MR a'.g.msgs ev m := by
  have htn : (a.node i).term = t := by rw [h.term]; exact ht
  have hrn : (a.node i).role = .follower := fol_role h hr hld
  have hlf : c.state.leads = false := by rw [hr]; rfl
  obtain ⟨p1, p0, p2⟩ := ae_sit (i := i) hi hm htn
  have hae : aeStepDown (a.node i) t true = a.node i := aeStepDown_same true htn hrn
  have hno : ∀ ms : List (CMsg N D), (∀ m ∈ ms, MR a.g.msgs ev m) → ∃ a', Sim1 c0 i a a' ∧
      NR c0 a'.g ev i c (a'.node i) ∧ ∀ m ∈ ms, MR a'.g.msgs ev m :=
    fun ms hms => ⟨a, Sim1.refl _ _ _, h, hms⟩
  have hsim : Sim1 c0 i a (eff c0 a (.recvAE i t prev pt es cm true gone)) :=
    sim_act i _ rfl ⟨hm, Nat.le_of_eq htn, fun hg => by rw [h.snap]; exact hgone hg⟩
  have hdl : (a.node i).dl = c.dl := h.dl
  have hlog : (a.node i).log = c.log := h.log
  have happ : (a.node i).applied = c.applied := h.applied
  unfold sAppend2
  by_cases k1 : es ≠ [] ∧ c.dl.isSome = true
  · rw [if_pos k1]; exact hno [] (by simp)
  rw [if_neg k1]
  by_cases k2 : (if gone = true then 0 else termAt c.log prev) ≠ pt
  · rw [if_pos k2]
    refine hno _ ?_
    intro m hx
    simp only [List.mem_singleton] at hx
    subst hx
    intro hx; cases hx
  rw [if_neg k2]
  have k2' := Decidable.not_not.mp k2
  have hg : gone = false := by
    cases gone with
    | false => rfl
    | true =>
      have := p1 (hgone rfl).1
      simp at k2'; omega
  subst hg
  simp only [Bool.false_eq_true, if_false] at k2'
  have hle : prev ≤ c.log.length := by
    by_cases hp : prev = 0
    · omega
    · have := p1 (by omega)
      rcases Nat.lt_or_ge c.log.length prev with hx | hx
      · rw [termAt_beyond hx] at k2'; omega
      · exact hx
  have hok : prevOk (a.node i) prev pt = true := by
    simp only [prevOk, hlog, Bool.and_eq_true, decide_eq_true_eq]
    exact ⟨hle, k2'⟩
  have hcond : (false || ((a.node i).dl.isSome && !es.isEmpty) || !prevOk (a.node i) prev pt) = false := by
    rw [hok, hdl]
    simp only [Bool.false_or, Bool.not_true, Bool.or_false, Bool.and_eq_false_iff, Bool.not_eq_false']
    by_cases he : es = []
    · right; simp [he]
    · left
      simpa using fun hx => k1 ⟨he, hx⟩
  simp only [eff, handleAE, hae, hcond, Bool.false_eq_true, if_false] at hsim
  by_cases k3 : es = []
  · rw [if_pos k3]
    simp only [k3, if_true, Bool.false_eq_true, if_false] at hsim
    refine ⟨_, hsim, ?_, ?_⟩
    · simp only [setNode, updF_same]
      exact max_commit h hr _
    · intro m hx
      simp only [List.mem_singleton] at hx
      subst hx
      intro _ hx
      exact absurd hx (by simp)
  rw [if_neg k3]
  simp only [k3, if_false] at hsim
  by_cases k4 : prev + es.length ≤ c.applied
  · rw [if_pos k4]
    have k4' : prev + es.length ≤ (a.node i).applied := by rw [happ]; exact k4
    simp only [k4', if_true] at hsim
    refine ⟨_, hsim, ?_, ?_⟩
    · simp only [updF_same]
      have hsub : GSub a.g (a.g.send (.ar t i (prev + es.length))) :=
        ⟨fun _ x => List.mem_cons_of_mem _ x, fun _ _ x => x, fun _ x => x, fun _ x => x⟩
      exact (max_commit h hr _).mono hsub (fun e he => he)
    · intro m hx
      simp only [List.mem_singleton] at hx
      subst hx
      intro _ _
      simp [Glob.send]
  · rw [if_neg k4]
    have k4' : ¬ prev + es.length ≤ (a.node i).applied := by rw [happ]; exact k4
    simp only [k4', Bool.false_eq_true, if_false] at hsim
    refine ⟨_, hsim, ?_, by simp⟩
    simp only [setNode, updF_same]
    obtain ⟨L, P, hP, hs⟩ := p2 (by rw [hlog]; exact hle) (by rw [hlog]; exact k2')
    have hdr := hs.drain hi.g.toGBase
    rw [hP, hlog] at hdr
    have hlen : ((drain c.log (resolveOps c.log prev es)).take (prev + es.length)).length =
        prev + es.length := by
      rw [List.length_take]
      rcases hdr with ⟨_, e⟩ | ⟨e1, e2⟩
      · rw [e, List.length_append, hP]; omega
      · rw [e1]
        have := e2.length_le
        rw [List.length_append, hP] at this
        show min _ c.log.length = _
        omega
    have hlogs : drain c.log (resolveOps c.log prev es) = drainJobs c.log (resolveJobs c.log prev es) :=
      (drain_rel (forall2_resolve c.log prev es) c.log).symm
    have hj : JR (Job.follower c.term (prev + es.length) es.length cm srv)
        (.ackF t ((drain c.log (resolveOps c.log prev es)).take (prev + es.length)) cm) := by
      have := JR.follower (D := D) c.term es.length cm srv
        ((drain c.log (resolveOps c.log prev es)).take (prev + es.length))
      rw [hlen] at this
      rw [← ht]; exact this
    have := h.relog hlf (drainJobs c.log (resolveJobs c.log prev es))
      (forall2_append (forall2_resolve c.log prev es) (.cons hj .nil))
      (by rw [noLeader_append, noLeader_resolve]; rfl)
    simp only [aeAppend, hlog]
    rw [hlogs]
    rw [hlogs] at this
    rw [← List.append_assoc, ← List.append_assoc] at this
    exact this

theorem sAppend_eq (i : N) (c : Srv N D) (t : Nat) (srv : N) (prev pt : Nat)
    (es : List (Entry N D)) (cm : Nat) (ok gone : Bool) (h1 : ¬ t < c.term)
    (h2 : (sCheckStepDown i c t srv ok).1.leaderId = some srv) :
    sAppend i c t srv prev pt es cm ok gone =
      ((sAppend2 i { (sCheckStepDown i c t srv ok).1 with lastLeader := some srv } t srv prev pt es cm
        gone).1,
       (sAppend2 i { (sCheckStepDown i c t srv ok).1 with lastLeader := some srv } t srv prev pt es cm
        gone).2, (sCheckStepDown i c t srv ok).2) := by
  unfold sAppend sAppend2
  rw [if_neg h1]
  dsimp only
  rw [if_neg (by simp [h2])]
  (repeat' split) <;> rfl

theorem sim_append {a : Sys N D} (hi : Inv c0 a) (h : NR c0 a.g ev i c (a.node i)) (t : Nat)
    (srv : N) (prev pt : Nat) (es : List (Entry N D)) (cm : Nat) (ok gone : Bool)
    (hm : Msg.ae t prev pt es cm ∈ a.g.msgs) (hl : Ev.lead srv t ∈ ev)
    (her : ER a.g ev (Ev.lead srv t))
    (hgone : gone = true → 0 < prev ∧ prev < c.snap.length) :
    Tr c0 i ev a (sAppend i c t srv prev pt es cm ok gone) := by
  by_cases k0 : t < c.term
  · unfold sAppend
    rw [if_pos k0]
    refine Tr.stayM h ?_
    intro m hx
    simp only [List.mem_singleton] at hx
    subst hx
    intro hx; cases hx
  obtain ⟨a1, s1, s2, s3, s4, s5, s6, s7⟩ := sim_check hi h t srv ok (by omega) hl her
  by_cases k1 : (sCheckStepDown i c t srv ok).1.leaderId = some srv
  · rw [sAppend_eq i c t srv prev pt es cm ok gone k0 k1]
    obtain ⟨a2, r1, r2, r3⟩ := sim_append2 (s1.inv hi) (s3.lastLeader (some srv)) t srv prev pt es cm
      gone s5 s6 (by
        show (sCheckStepDown i c t srv ok).1.leaderId ≠ none
        rw [k1]; simp) (s1.sub.msgs _ hm) (fun hg => by
        show 0 < prev ∧ prev < (sCheckStepDown i c t srv ok).1.snap.length
        rw [s7]; exact hgone hg)
    exact ⟨a2, s1.trans r1, r2, r3, fun e he => (s4 e he).mono r1.sub (fun _ x => x)⟩
  · unfold sAppend
    rw [if_neg k0]
    dsimp only
    rw [if_pos k1]
    obtain ⟨a2, r1, r2, r3⟩ := sim_stepDown s3 (t + 1) ok (by rw [s5]; omega)
      (Or.inl (by rw [s5]; omega))
    refine ⟨a2, s1.trans r1, r2, ?_, fun e he => (s4 e he).mono r1.sub (fun _ x => x)⟩
    intro m hx
    simp only [List.mem_singleton] at hx
    subst hx
    intro hx; cases hx

theorem sim_install {a : Sys N D} (hi : Inv c0 a) (h : NR c0 a.g ev i c (a.node i)) (t : Nat)
    (srv : N) (K : Log N D) (ok : Bool)
    (hm : Msg.is t K ∈ a.g.msgs) (hl : Ev.lead srv t ∈ ev) (her : ER a.g ev (Ev.lead srv t)) :
    Tr c0 i ev a (sInstall i c t srv K ok) := by
  unfold sInstall
  by_cases k0 : t < c.term
  · rw [if_pos k0]; exact Tr.stay h
  rw [if_neg k0]
  obtain ⟨a1, s1, s2, s3, s4, s5, s6, s7⟩ := sim_check hi h t srv ok (by omega) hl her
  dsimp only
  generalize sCheckStepDown i c t srv ok = r at s3 s4 s5 s6 s7 ⊢
  by_cases k1 : r.1.leaderId ≠ some srv
  · rw [if_pos k1]
    obtain ⟨a2, r1, r2, r3⟩ := sim_stepDown s3 (t + 1) ok (by rw [s5]; omega)
      (Or.inl (by rw [s5]; omega))
    exact ⟨a2, s1.trans r1, r2, by simp, fun e he => (s4 e he).mono r1.sub (fun _ x => x)⟩
  rw [if_neg k1]
  by_cases k2 : r.1.dl = none ∧ r.1.snap.length < K.length
  · rw [if_pos k2]
    have hsim : Sim1 c0 i a1 (eff c0 a1 (.recvIS i t K ok)) :=
      sim_act i _ rfl ⟨s1.sub.msgs _ hm, by rw [s3.term]; omega⟩
    refine ⟨_, s1.trans hsim, ?_, by simp, fun e he => (s4 e he).mono hsim.sub (fun _ x => x)⟩
    have hae : aeStepDown (a1.node i) t ok = a1.node i :=
      aeStepDown_same ok (by rw [s3.term]; exact s5) (fol_role s3 s6 (by rw [Decidable.not_not.mp k1]; simp))
    simp only [eff, setNode, updF_same, handleIS, hae]
    rw [if_pos ⟨by rw [s3.dl]; exact k2.1, by rw [s3.snap]; exact k2.2⟩]
    exact s3.dlTo (some K)
  · rw [if_neg k2]
    exact ⟨a1, s1, s3, by simp, s4⟩

theorem sim_timeoutNow {a : Sys N D} (hi : Inv c0 a) (h : NR c0 a.g ev i c (a.node i)) (t : Nat)
    (stepped ok : Bool) (hp : (t ≠ c.term ∨ c.state ≠ .follower) ∨ electOk CNorm c = true) :
    Tr c0 i ev a (sTimeoutNow c0 i c t stepped ok, [], []) := by
  unfold sTimeoutNow
  by_cases k1 : t ≠ c.term
  · rw [if_pos k1]
    by_cases k2 : c.term < t
    · rw [if_pos k2]
      obtain ⟨a', s1, s2, s3⟩ := sim_stepDown h t ok (Nat.le_of_lt k2) (Or.inl k2)
      exact ⟨a', s1, s2, by simp, by simp⟩
    · rw [if_neg k2]; exact Tr.stay h
  · rw [if_neg k1]
    by_cases k2 : c.state ≠ .follower
    · rw [if_pos k2]; exact Tr.stay h
    · rw [if_neg k2]
      have k2' := Decidable.not_not.mp k2
      have hok : electOk CNorm c = true := by
        rcases hp with (hp | hp) | hp
        · exact absurd hp k1
        · exact absurd hp k2
        · exact hp
      exact sim_electA hi h stepped (by rw [k2']; rfl) hok

/-! ### Steps of the cluster -/

/-- Every step of the cluster of servers is matched by steps of the cluster model. -/
theorem sim_step {ab ls : Bool} {s s' : CSys N D} {a : Sys N D} (h : SR c0 s a) (hi : Inv c0 a)
    (x : CAct N D) (hok : ab = true ∨ ∀ i, (s.node i).timers = [])
    (hx : cstep ⟨Norm, ab, true, ls⟩ c0 s x = some s') :
    ∃ a', Steps Norm c0 a a' ∧ SR c0 s' a' := by
  unfold cstep at hx
  by_cases hp : cpre ⟨Norm, ab, true, ls⟩ c0 s x = true
  rotate_left
  · rw [if_neg hp] at hx; cases hx
  rw [if_pos hp] at hx
  simp only [Option.some.injEq] at hx
  subst hx
  apply h.of_tr
  have hn := h.node x.at
  cases x with
  | elect i =>
    simp only [cpre, Bool.and_eq_true, Bool.not_eq_true'] at hp
    exact sim_electA hi hn false hp.1 hp.2
  | timeoutNow i t stepped ok =>
    refine sim_timeoutNow hi hn t stepped ok ?_
    simp only [cpre, Bool.or_eq_true, decide_eq_true_eq] at hp
    exact hp
  | electB i f ok free =>
    simp only [cpre, Bool.and_eq_true, decide_eq_true_eq, Bool.not_true, Bool.or_false] at hp
    obtain ⟨⟨⟨h1, h2⟩, h3⟩, h4⟩ := hp
    subst h3
    exact sim_electB hi hn f free h1 h2
  | electDie i f =>
    simp only [cpre, Bool.and_eq_true, decide_eq_true_eq] at hp
    exact sim_electDie hi hn f hp.1.1 hp.1.2 hp.2
  | timer i v free =>
    simp only [cpre, Bool.and_eq_true, decide_eq_true_eq] at hp
    refine sim_timer hi hn v free hp.1 (hok.resolve_right (fun hx => ?_))
    have := hp.1
    rw [hx i] at this; cases this
  | voteRes i r gr rj d rt pt ok =>
    simp only [cpre, Bool.and_eq_true, decide_eq_true_eq] at hp
    exact sim_voteRes hi hn r gr rj d rt pt ok hp.1 (h.msg _ hp.2)
  | voteReq i t cand claim dis =>
    simp only [cpre, decide_eq_true_eq] at hp
    have hm := h.msg _ hp
    exact sim_voteReqA hi hn t cand claim hm.2 hm.1
  | voteReqB i f free ok grantOk =>
    simp only [cpre, Bool.and_eq_true, Bool.or_eq_true, decide_eq_true_eq, Bool.not_true,
      Bool.false_eq_true, false_or] at hp
    exact sim_voteReqB hi hn f free ok grantOk hp.1.1 hp.2
  | stepDown i t ok =>
    simp only [cpre, decide_eq_true_eq] at hp
    obtain ⟨a', s1, s2, s3⟩ := sim_stepAny hn t ok hp
    exact ⟨a', s1, s2, by simp [ceff], by simp [ceff]⟩
  | transfer i =>
    simp only [cpre, decide_eq_true_eq] at hp
    exact Tr.stay (hn.leading (by rw [CAct.at, hp]; rfl) rfl)
  | transferTimeout i =>
    simp only [cpre, decide_eq_true_eq] at hp
    exact Tr.stay (hn.leading (by rw [CAct.at, hp]; rfl) rfl)
  | apply i ds =>
    simp only [cpre, Bool.and_eq_true, decide_eq_true_eq] at hp
    exact sim_apply hi hn ds hp.2 (by rw [CAct.at, hp.1]; rfl)
  | changeConf i cf =>
    simp only [cpre, Bool.and_eq_true, decide_eq_true_eq] at hp
    exact sim_changeConf hi hn cf hp.1.1 hp.1.2 hp.2
  | replSend i to prev =>
    simp only [cpre, Bool.and_eq_true, decide_eq_true_eq] at hp
    exact sim_replSend hn to prev hp.1.1 hp.2
  | replRead i f cnt =>
    cases f with
    | ack => simp [cpre] at hp
    | send t to prev pt cm =>
      simp only [cpre, Bool.and_eq_true, decide_eq_true_eq, Bool.not_true, Bool.false_or] at hp
      exact sim_replRead hn t to prev pt cm cnt hp.1 hp.2.1 hp.2.2
  | replRes i who first upTo k =>
    simp only [cpre, Bool.and_eq_true, decide_eq_true_eq] at hp
    exact sim_replRes hn who first upTo hp.1.1 (h.msg _ hp.2 rfl hp.1.2)
  | replAck i f =>
    cases f with
    | send => simp [cpre] at hp
    | ack t who first last =>
      simp only [cpre, Bool.and_eq_true, decide_eq_true_eq, Bool.not_true, Bool.false_or] at hp
      exact sim_replAck hi hn t who first last hp.1 hp.2.1 hp.2.2
  | append i t srv prev pt es cm ok gone =>
    simp only [cpre, Bool.and_eq_true, Bool.or_eq_true, decide_eq_true_eq, Bool.not_eq_true'] at hp
    have hm := h.msg _ hp.1
    refine sim_append hi hn t srv prev pt es cm ok gone hm.1 hm.2 (h.ev _ hm.2) (fun hg => ?_)
    rcases hp.2 with h' | h'
    · rw [hg] at h'; cases h'
    · exact h'
  | sendIS i to =>
    simp only [cpre, Bool.and_eq_true, decide_eq_true_eq] at hp
    exact sim_sendIS hn to hp.1.1 hp.2
  | install i t srv K ok =>
    simp only [cpre, decide_eq_true_eq] at hp
    have hm := h.msg _ hp
    exact sim_install hi hn t srv K ok hm.1 hm.2 (h.ev _ hm.2)
  | disk i => exact sim_disk hi hn
  | fsm i =>
    simp only [cpre, decide_eq_true_eq] at hp
    exact sim_fsm hi hn hp
  | saveSnap i k =>
    simp only [cpre, Bool.and_eq_true, decide_eq_true_eq, Bool.not_true, Bool.false_or] at hp
    exact sim_saveSnap hn k hp.1.1.1 hp.1.1.2 hp.1.2 hp.2
  | copied i =>
    simp only [cpre, Bool.and_eq_true, decide_eq_true_eq, Bool.not_true, Bool.false_or] at hp
    exact sim_copied hn hp.1 hp.2
  | loaded i =>
    simp only [cpre, decide_eq_true_eq] at hp
    exact sim_loaded hi hn hp
  | dlDrop i =>
    simp only [cpre, Bool.and_eq_true, decide_eq_true_eq] at hp
    exact sim_dlDrop hn hp.1 hp.2
  | crash i => exact sim_crash hn

/-- Fresh servers match fresh nodes. -/
theorem sim_init : SR (D := D) c0 initC (initSys c0) where
  node := fun i => {
    term := rfl, vote := rfl, role := Or.inl rfl, pterm := rfl, pvote := rfl, log := rfl, disk := rfl,
    snap := rfl, psnap := rfl, dl := rfl, applied := rfl, sm := rfl, queue := .nil, commit := rfl,
    vf := rfl
    el := fun f hf => by cases hf
    eln := List.nodup_nil
    sn := by simp [initSys, initGlob, freshNode]
    cand := fun hc => by cases hc
    rpc := fun hc => by cases hc
    pend := fun _ f hf => by cases hf
    vrs := ⟨fun r hr => (by cases hr), fun r hr => (by cases hr)⟩
    ask := fun hc => by cases hc
    lead := fun hc => by cases hc
    fol := fun _ => ⟨rfl, rfl⟩
    me := fun hc => by cases hc
    lid := fun l hl => by cases hl
    repl := fun f hf => by cases hf }
  msg := fun m hm => by cases hm
  ev := fun e he => by cases he

/-! ### Timers -/

theorem ite_s {P : Prop} [Decidable P] {x y : Srv N D} (h1 : x.timers = []) (h2 : y.timers = []) :
    (if P then x else y).timers = [] := by
  split
  · exact h1
  · exact h2

theorem ite_r {P : Prop} [Decidable P] {x y : Res N D} (h1 : x.1.timers = []) (h2 : y.1.timers = []) :
    (if P then x else y).1.timers = [] := by
  split
  · exact h1
  · exact h2

theorem timers_check (t : Nat) (srv : N) (ok : Bool) (hc : c.timers = []) :
    (sCheckStepDown i c t srv ok).1.timers = [] := by
  unfold sCheckStepDown
  dsimp only
  have : (if c.term < t ∨ c.state ≠ .follower ∨ c.leaderId = none then sStepDown c t ok else c).timers
      = [] := ite_s hc hc
  generalize (if c.term < t ∨ c.state ≠ .follower ∨ c.leaderId = none then sStepDown c t ok else c) =
    c1 at this
  split <;> exact this

theorem timers_become (p : CParams) (hc : c.timers = []) : (sBecomeLeader p c0 i c).1.timers = [] :=
  ite_r rfl hc

theorem timers_grant (p : CParams) (hc : c.timers = []) : (sGrantSelf p c0 i c true).1.timers = [] :=
  by
  unfold sGrantSelf
  rw [if_pos rfl]
  exact ite_r (timers_become p hc) hc

theorem timers_electA (st : Bool) (hc : c.timers = []) : (sElectA c0 i c st).timers = [] :=
  ite_s hc hc

theorem timers_voteRes (p : CParams) (r : Rpc N) (g rj d : Bool) (rt pt : Nat) (ok : Bool)
    (hc : c.timers = []) : (sVoteRes p c0 i c r g rj d rt pt ok).1.timers = [] := by
  unfold sVoteRes
  refine ite_r hc (ite_r hc (ite_r hc (ite_r hc (ite_r hc (ite_r ?_ (ite_r ?_ ?_))))))
  · exact timers_become p hc
  · exact hc
  · exact hc

theorem timers_voteCast (f : VFrame N) (ok gok : Bool) (hc : c.timers = []) :
    (sVoteCast c f ok gok).timers = [] := by
  have h1 : (if c.term < f.reqTerm then sStepDown c f.reqTerm ok else c).timers = [] := ite_s hc hc
  exact ite_s (ite_s h1 h1) h1

theorem timers_append (t : Nat) (srv : N) (prev pt : Nat) (es : List (Entry N D)) (cm : Nat)
    (ok gone : Bool) (hc : c.timers = []) :
    (sAppend i c t srv prev pt es cm ok gone).1.timers = [] := by
  have h1 := timers_check (i := i) t srv ok hc
  exact ite_r hc (ite_r h1 (ite_r h1 (ite_r h1 (ite_r h1 (ite_r h1 h1)))))

theorem timers_disk (hc : c.timers = []) : (sDisk i c).1.timers = [] := by
  unfold sDisk
  cases c.queue with
  | nil => exact hc
  | cons j q =>
    cases j with
    | push => exact hc
    | pop => exact hc
    | snap => exact hc
    | follower => exact ite_r hc hc
    | leader => exact hc

/-- With the lease off, `grant_self` never waits: there are no grant-self timers. -/
theorem timers_ceff (p : CParams) (hls : p.lease = false) (s : CSys N D) (x : CAct N D)
    (hp : cpre p c0 s x = true) (hc : (s.node x.at).timers = []) :
    (ceff p c0 (s.node x.at) x).1.timers = [] := by
  cases x with
  | elect i => exact timers_electA _ hc
  | timeoutNow i t st ok => exact ite_s (ite_s hc hc) (ite_s hc (timers_electA _ hc))
  | electB i f ok free =>
    simp only [cpre, hls, Bool.or_false, Bool.and_eq_true] at hp
    have hfree := hp.2
    subst hfree
    exact ite_r hc (ite_r (timers_grant p hc) hc)
  | electDie => rfl
  | timer i v free =>
    simp only [cpre, Bool.and_eq_true, decide_eq_true_eq] at hp
    have := hp.1
    have hc : (s.node i).timers = [] := hc
    rw [hc] at this; cases this
  | voteRes i r g rj d rt pt ok => exact timers_voteRes p r g rj d rt pt ok hc
  | voteReq i t cand claim dis => exact ite_r hc hc
  | voteReqB i f free ok gok =>
    refine ite_r hc (ite_r hc ?_)
    exact timers_voteCast _ _ _ hc
  | replRead i f cnt => cases f <;> exact hc
  | replAck i f => cases f <;> exact hc
  | append i t srv prev pt es cm ok gone => exact timers_append t srv prev pt es cm ok gone hc
  | install i t srv K ok =>
    have h1 := timers_check (i := i) t srv ok hc
    exact ite_r hc (ite_r h1 (ite_r h1 h1))
  | disk i => exact timers_disk hc
  | loaded i => exact ite_s (ite_s hc hc) hc
  | crash => rfl
  | _ => exact hc

theorem timers_step {p : CParams} (hls : p.lease = false) {s s' : CSys N D} {x : CAct N D}
    (hx : cstep p c0 s x = some s') (h : ∀ i, (s.node i).timers = []) :
    ∀ i, (s'.node i).timers = [] := by
  unfold cstep at hx
  by_cases hp : cpre p c0 s x = true
  rotate_left
  · rw [if_neg hp] at hx; cases hx
  rw [if_pos hp] at hx
  simp only [Option.some.injEq] at hx
  subst hx
  intro i
  by_cases hi : i = x.at
  · subst hi
    simp only [updF_same]
    exact timers_ceff p hls s x hp (h _)
  · simp only [updF_other _ _ hi]; exact h i

/-- The assumptions under which the simulation holds: those of the abstract model, `replOk`, and
failed CHECKs end the process, or the leader lease is off. -/
structure COk (p : CParams) : Prop where
  base : p.base = Norm
  repl : p.replOk = true
  check : p.checkAborts = true ∨ p.lease = false

/-- A state of the cluster of servers and a matching one of the cluster model. -/
structure SRT (p : CParams) (c0 : Conf N) (s : CSys N D) (a : Sys N D) : Prop where
  rel : SR c0 s a
  reach : Reachable Norm c0 a
  timers : p.lease = false → ∀ i, (s.node i).timers = []

theorem sim_step' {p : CParams} (hp : COk p) {s s' : CSys N D} {a : Sys N D} (h : SRT p c0 s a)
    {x : CAct N D} (hx : cstep p c0 s x = some s') :
    ∃ a', Steps Norm c0 a a' ∧ SRT p c0 s' a' := by
  obtain ⟨b, ab, ro, ls⟩ := p
  obtain ⟨h1, h2, h3⟩ := hp
  dsimp only at h1 h2 h3
  subst h1; subst h2
  obtain ⟨a', s1, s2⟩ := sim_step h.rel (inv_reachable h.reach) x (h3.imp id h.timers) hx
  exact ⟨a', s1, s2, steps_trans h.reach s1, fun hl => timers_step hl hx (h.timers hl)⟩

theorem sim_steps {p : CParams} (hp : COk p) {s s' : CSys N D} {a : Sys N D} (h : SRT p c0 s a)
    (hs : CSteps p c0 s s') : ∃ a', Steps Norm c0 a a' ∧ SRT p c0 s' a' := by
  induction hs with
  | refl => exact ⟨a, .refl, h⟩
  | tail x _ hx ih =>
    obtain ⟨a', h1, h2⟩ := ih
    obtain ⟨a'', h3, h4⟩ := sim_step' hp h2 hx
    exact ⟨a'', steps_trans h1 h3, h4⟩

/-- Every execution of the cluster of servers is an execution of the cluster model. -/
theorem sim_reach' {p : CParams} (hp : COk p) {s : CSys N D} (h : CReachable p c0 s) :
    ∃ a, SRT p c0 s a := by
  obtain ⟨a, _, h2⟩ := sim_steps hp (a := initSys c0) ⟨sim_init, .refl, fun _ _ => rfl⟩ h
  exact ⟨a, h2⟩

theorem sim_reach {p : CParams} (hp : COk p) {s : CSys N D} (h : CReachable p c0 s) :
    ∃ a, Reachable Norm c0 a ∧ SR c0 s a := by
  obtain ⟨a, h2⟩ := sim_reach' hp h
  exact ⟨a, h2.reach, h2.rel⟩

end Braft.Cl
