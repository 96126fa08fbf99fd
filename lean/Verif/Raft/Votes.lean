import Verif.Raft.StepsD
import Verif.Raft.Exec
/-
What holds without any environment assumption (`Params` arbitrary): votes and terms, and election
safety while the membership does not change.
-/
set_option linter.unusedVariables false
set_option linter.unusedSimpArgs false
set_option linter.unusedSectionVars false

namespace Braft.Raft
variable {N D : Type} [DecidableEq N] [DecidableEq D]

/-- Votes and terms of one node. -/
structure VN (vs : List (VoteRec N)) (i : N) (n : NodeSt N D) : Prop where
  pt : n.pterm ≤ n.term
  v1 : ∀ v ∈ vs, v.voter = i → v.term < n.pterm ∨ (v.term = n.pterm ∧ n.pvote = some v.cand)
  vmem : n.term = n.pterm → ∀ c, n.pvote = some c → n.vote = some c
  pv : ∀ c, n.pvote = some c → ∃ k, ⟨n.pterm, i, c, k⟩ ∈ vs
  mv : ∀ c, n.vote = some c → c ≠ i → ∃ k, ⟨n.term, i, c, k⟩ ∈ vs
  elec : ∀ T, n.elect = some T → T ≤ n.term ∧ (T = n.term → n.vote = some i ∧ n.pterm < T)
  vf : ∀ f ∈ n.vframes, f.savedTerm ≤ f.reqTerm ∧ f.cand ≠ i

structure VInv (s : Sys N D) : Prop where
  vuniq : ∀ v ∈ s.g.votes, ∀ v' ∈ s.g.votes, v.term = v'.term → v.voter = v'.voter →
    v.cand = v'.cand
  vr : ∀ t v c, Msg.vr t v c ∈ s.g.msgs → ∃ k, ⟨t, v, c, k⟩ ∈ s.g.votes
  vrne : ∀ t v c, Msg.vr t v c ∈ s.g.msgs → c ≠ v
  n : ∀ i, VN s.g.votes i (s.node i)

variable {vs : List (VoteRec N)} {i : N} {n n' : NodeSt N D}

/-- Only these fields matter. -/
theorem VN.congr (h : VN vs i n) (h1 : n'.term = n.term) (h2 : n'.vote = n.vote)
    (h3 : n'.pterm = n.pterm) (h4 : n'.pvote = n.pvote) (h5 : n'.elect = n.elect)
    (h6 : n'.vframes = n.vframes) : VN vs i n' := by
  obtain ⟨a, b, c, d, e, f, g⟩ := h
  constructor
  · rw [h1, h3]; exact a
  · rw [h3, h4]; exact b
  · rw [h1, h2, h3, h4]; exact c
  · rw [h3, h4]; exact d
  · rw [h1, h2]; exact e
  · rw [h1, h2, h3, h5]; exact f
  · rw [h6]; exact g

theorem VN.frame (h : VN vs i n) (f' : List (VFrame N))
    (hf : ∀ f ∈ f', f.savedTerm ≤ f.reqTerm ∧ f.cand ≠ i) :
    VN vs i { n with vframes := f' } := { h with vf := hf }

theorem VN.cons (h : VN vs i n) (v : VoteRec N) (hv : v.voter ≠ i) : VN (v :: vs) i n where
  pt := h.pt
  v1 := fun w hw hi => by
    rcases List.mem_cons.mp hw with rfl | hw
    · exact absurd hi hv
    · exact h.v1 w hw hi
  vmem := h.vmem
  pv := fun c hc => by
    obtain ⟨k, hk⟩ := h.pv c hc
    exact ⟨k, List.mem_cons_of_mem _ hk⟩
  mv := fun c hc hne => by
    obtain ⟨k, hk⟩ := h.mv c hc hne
    exact ⟨k, List.mem_cons_of_mem _ hk⟩
  elec := h.elec
  vf := h.vf

theorem VN.stepDown (h : VN vs i n) (t : Nat) (ok : Bool) : VN vs i (stepDown n t ok) := by
  unfold Raft.stepDown
  have hpt := h.pt
  by_cases ht : n.term < t
  · rw [if_pos ht]
    exact {
      pt := by show (if ok = true then t else n.pterm) ≤ t; cases ok <;> simp <;> omega
      v1 := fun v hv hn => by
        have := h.v1 v hv hn
        cases ok
        · simpa using this
        · left; show v.term < t; omega
      vmem := by
        intro he c hc
        cases ok
        · simp at he; omega
        · simp at hc
      pv := by
        intro c hc
        cases ok
        · simp at hc ⊢; exact h.pv c hc
        · simp at hc
      mv := by intro c hc; simp at hc
      elec := fun T hT => ⟨by have := (h.elec T hT).1; show T ≤ t; omega, by
        intro he
        have := (h.elec T hT).1
        simp at he; omega⟩
      vf := h.vf }
  · rw [if_neg ht]
    exact h.congr rfl rfl rfl rfl rfl rfl

theorem VN.electStart (c0 : Conf N) (h : VN vs i n) : VN vs i (electStart c0 i n) where
  pt := by have := h.pt; show n.pterm ≤ n.term + 1; omega
  v1 := h.v1
  vmem := by
    intro he
    have := h.pt
    simp [Raft.electStart] at he; omega
  pv := h.pv
  mv := by
    intro c hc hne
    simp [Raft.electStart] at hc
    exact absurd hc.symm hne
  elec := by
    intro T hT
    simp [Raft.electStart] at hT
    subst hT
    exact ⟨Nat.le_refl _, fun _ => ⟨rfl, by have := h.pt; show n.pterm < n.term + 1; omega⟩⟩
  vf := h.vf

theorem VN.restart (h : VN vs i n) : VN vs i (restart n) := by
  unfold Raft.restart
  dsimp only
  generalize snapMerge n.psnap n.disk = l
  by_cases hb : n.pterm < lastTerm l
  · exact {
      pt := Nat.le_refl _
      v1 := fun v hv hn => by
        left
        simp only [hb, decide_true, if_true]
        rcases h.v1 v hv hn with h' | h' <;> omega
      vmem := by intro _ c hc; simp [hb] at hc
      pv := by intro c hc; simp [hb] at hc
      mv := by intro c hc; simp [hb] at hc
      elec := by intro T hT; simp at hT
      vf := by intro f hf; simp at hf }
  · exact {
      pt := Nat.le_refl _
      v1 := by simp only [hb, decide_false, if_false]; exact h.v1
      vmem := by intro _ c hc; exact hc
      pv := by simp only [hb, decide_false, if_false]; exact h.pv
      mv := by
        intro c hc _
        simp only [hb, decide_false, if_false] at hc ⊢
        exact h.pv c hc
      elec := by intro T hT; simp at hT
      vf := by intro f hf; simp at hf }

theorem VN.voteFinish (h : VN vs i n) {f : VFrame N} (hf : f ∈ n.vframes)
    (hs : f.savedTerm = n.term) (ok grantOk : Bool) :
    ((voteFinish n f ok grantOk).2 = false → VN vs i (voteFinish n f ok grantOk).1) ∧
    ((voteFinish n f ok grantOk).2 = true →
      (∀ v ∈ vs, v.term = f.reqTerm → v.voter = i → False) ∧
      ∀ k, VN (⟨f.reqTerm, i, f.cand, k⟩ :: vs) i (voteFinish n f ok grantOk).1) := by
  obtain ⟨hle, hci⟩ := h.vf f hf
  generalize hn1 : (if n.term < f.reqTerm then Raft.stepDown n f.reqTerm ok else n) = n1
  have hi1 : VN vs i n1 := by
    rw [← hn1]; split
    · exact h.stepDown _ _
    · exact h
  have ht1 : n1.term = f.reqTerm := by
    rw [← hn1]; split
    · rw [stepDown_term]; omega
    · omega
  have hi2 : VN vs i { n1 with vframes := n.vframes.erase f } :=
    hi1.frame _ (fun g hg => h.vf g (List.mem_of_mem_erase hg))
  unfold Raft.voteFinish
  rw [hn1]
  simp only []
  by_cases hg : (idLe f.lastId f.claim = true ∧ n1.vote = none)
  · rw [if_pos hg]
    generalize hn2 : Raft.stepDown { n1 with vframes := n.vframes.erase f } f.reqTerm ok = n2
    have hi3 : VN vs i n2 := by rw [← hn2]; exact hi2.stepDown _ _
    have ht2 : n2.term = f.reqTerm := by
      rw [← hn2, stepDown_term]; show max n1.term f.reqTerm = f.reqTerm; omega
    have hv2 : n2.vote = none := by
      rw [← hn2]; unfold Raft.stepDown
      split
      · rfl
      · exact hg.2
    by_cases hgo : grantOk = true
    · rw [if_pos hgo]
      refine ⟨(by intro hx; cases hx), fun _ => ?_⟩
      have hnone : ∀ v ∈ vs, v.term = f.reqTerm → v.voter = i → False := by
        intro v hv ht hi
        have hpt := hi3.pt
        rcases hi3.v1 v hv hi with h' | ⟨h', hp⟩
        · omega
        · have := hi3.vmem (by omega) _ hp
          rw [hv2] at this; cases this
      refine ⟨hnone, fun k => ?_⟩
      exact {
        pt := Nat.le_refl _
        v1 := fun v hv hi => by
          simp only [List.mem_cons] at hv
          rcases hv with hv | hv
          · subst hv; exact Or.inr ⟨ht2.symm, rfl⟩
          · left
            show v.term < n2.term
            have hpt := hi3.pt
            have := hnone v hv
            rcases Nat.lt_or_ge v.term n2.term with h' | h'
            · exact h'
            · exfalso
              rcases hi3.v1 v hv hi with h'' | ⟨h'', _⟩
              · omega
              · exact this (by omega) hi
        vmem := fun _ c hc => hc
        pv := fun c hc => by
          obtain rfl : f.cand = c := Option.some.inj hc
          exact ⟨k, by simp [ht2]⟩
        mv := fun c hc hne => by
          obtain rfl : f.cand = c := Option.some.inj hc
          exact ⟨k, by simp [ht2]⟩
        elec := fun T hT => by
          refine ⟨(hi3.elec T hT).1, ?_⟩
          intro he
          have := ((hi3.elec T hT).2 he).1
          rw [hv2] at this; cases this
        vf := hi3.vf }
    · rw [if_neg hgo]
      exact ⟨fun _ => hi3, by intro hx; cases hx⟩
  · rw [if_neg hg]
    exact ⟨fun _ => hi2, by intro hx; cases hx⟩

theorem VInv.upd {s : Sys N D} (h : VInv s) (i : N) {n' : NodeSt N D} {g' : Glob N D}
    (hm : ∀ t v c, Msg.vr t v c ∈ g'.msgs → Msg.vr t v c ∈ s.g.msgs) (hv : g'.votes = s.g.votes)
    (hn : VN s.g.votes i n') : VInv { node := updF s.node i n', g := g' } where
  vuniq := by rw [hv]; exact h.vuniq
  vr := fun t v c hx => by rw [hv]; exact h.vr t v c (hm t v c hx)
  vrne := fun t v c hx => h.vrne t v c (hm t v c hx)
  n := fun j => by
    rw [hv]
    by_cases hj : j = i
    · subst hj; simpa [updF_same] using hn
    · simpa [updF_other _ _ hj] using h.n j

theorem VInv.node {s : Sys N D} (h : VInv s) (i : N) {n' : NodeSt N D}
    (hn : VN s.g.votes i n') : VInv (setNode s i n') :=
  h.upd i (fun _ _ _ h => h) rfl hn

theorem VInv.vote {s : Sys N D} (h : VInv s) (i : N) {n' : NodeSt N D} {g' : Glob N D}
    (v : VoteRec N) (hvi : v.voter = i) (hv : g'.votes = v :: s.g.votes)
    (hm : ∀ t w c, Msg.vr t w c ∈ g'.msgs → Msg.vr t w c ∈ s.g.msgs ∨
      (t = v.term ∧ w = i ∧ c = v.cand ∧ c ≠ i))
    (hu : ∀ w ∈ s.g.votes, w.term = v.term → w.voter = i → False)
    (hn : VN (v :: s.g.votes) i n') : VInv { node := updF s.node i n', g := g' } where
  vuniq := by
    rw [hv]
    intro a ha b hb ht hvo
    rcases List.mem_cons.mp ha with rfl | ha' <;> rcases List.mem_cons.mp hb with rfl | hb'
    · rfl
    · exact (hu b hb' ht.symm (by rw [← hvo, hvi])).elim
    · exact (hu a ha' ht (by rw [hvo, hvi])).elim
    · exact h.vuniq a ha' b hb' ht hvo
  vr := fun t w c hx => by
    rw [hv]
    rcases hm t w c hx with h' | ⟨rfl, rfl, rfl, _⟩
    · obtain ⟨k, hk⟩ := h.vr t w c h'
      exact ⟨k, List.mem_cons_of_mem _ hk⟩
    · exact ⟨v.before, by rw [← hvi]; exact List.mem_cons_self ..⟩
  vrne := fun t w c hx => by
    rcases hm t w c hx with h' | ⟨rfl, rfl, rfl, h'⟩
    · exact h.vrne t w c h'
    · exact h'
  n := fun j => by
    rw [hv]
    by_cases hj : j = i
    · subst hj; simpa [updF_same] using hn
    · simp only [updF_other _ _ hj]
      exact (h.n j).cons v (by rw [hvi]; exact fun h => hj h.symm)

/-- Handling AppendEntries leaves vote and term to `stepDown`. -/
theorem handleAE_VN (h : VN vs i n) (t prev pt : Nat) (es : List (Entry N D)) (c : Nat)
    (ok gone : Bool) : VN vs i (handleAE n t prev pt es c ok gone).1 := by
  have h1 : VN vs i (aeStepDown n t ok) := by
    unfold aeStepDown; split
    · exact h.stepDown _ _
    · exact h
  unfold handleAE
  simp only []
  split
  · exact h1
  · split
    · exact h1.congr rfl rfl rfl rfl rfl rfl
    · split
      · exact h1.congr rfl rfl rfl rfl rfl rfl
      · exact h1.congr rfl rfl rfl rfl rfl rfl

theorem vinv_init (c0 : Conf N) : VInv (initSys (D := D) c0) where
  vuniq := by simp [initSys, initGlob]
  vr := by simp [initSys, initGlob]
  vrne := by simp [initSys, initGlob]
  n := fun i => by constructor <;> simp [initSys, initGlob, freshNode]

theorem vinv_sysAppend {s : Sys N D} (h : VInv s) (i : N) (es : List (Entry N D)) :
    VInv (sysAppend s i es) :=
  h.upd i (fun _ _ _ h => h) rfl ((h.n i).congr rfl rfl rfl rfl rfl rfl)

theorem vinv_disk {s : Sys N D} (h : VInv s) (i : N) : VInv (diskStep s i) := by
  unfold diskStep
  simp only []
  split
  · exact h
  next op q hq =>
  split
  · exact h.upd i (fun _ _ _ h => h) rfl ((h.n i).congr rfl rfl rfl rfl rfl rfl)
  · exact h.upd i (fun _ _ _ h => h) rfl ((h.n i).congr rfl rfl rfl rfl rfl rfl)
  · exact h.upd i (fun _ _ _ h => h) rfl ((h.n i).congr rfl rfl rfl rfl rfl rfl)
  · split
    · refine h.upd i ?_ rfl ((h.n i).congr rfl rfl rfl rfl rfl rfl)
      intro t v c hx; simpa [Glob.ack, Glob.held] using hx
    · exact h.upd i (fun _ _ _ h => h) rfl ((h.n i).congr rfl rfl rfl rfl rfl rfl)
  · split
    · refine h.upd i ?_ rfl ((h.n i).congr rfl rfl rfl rfl rfl rfl)
      intro t v c hx; simpa [Glob.ack, Glob.held] using hx
    · exact h.upd i (fun _ _ _ h => h) rfl ((h.n i).congr rfl rfl rfl rfl rfl rfl)

theorem vinv_step {p : Params} {c0 : Conf N} {s s' : Sys N D} (h : VInv s)
    (hs : Step p c0 s s') : VInv s' := by
  obtain ⟨a, hp, rfl⟩ := hs
  cases a with
  | raiseTerm i t ok => exact h.node i ((h.n i).stepDown t ok)
  | electStart i => exact h.node i ((h.n i).electStart c0)
  | electSend i o =>
    have hn := h.n i
    have hel := (hn.elec _ hp.1).2 rfl
    refine h.vote i ⟨(s.node i).term, i, i, s.g.elections.length⟩ rfl rfl ?_ ?_ ?_
    · intro t w c hx
      left; simpa [Glob.send, Glob.voted] using hx
    · intro w hw ht hi
      have ht' : w.term = (s.node i).term := ht
      rcases hn.v1 w hw hi with h' | ⟨h', _⟩ <;> omega
    · exact {
        pt := Nat.le_refl _
        v1 := fun v hv hi => by
          simp only [List.mem_cons] at hv
          rcases hv with hv | hv
          · subst hv; exact Or.inr ⟨rfl, rfl⟩
          · left
            show v.term < (s.node i).term
            rcases hn.v1 v hv hi with h' | ⟨h', _⟩ <;> omega
        vmem := fun _ c hc => by
          have hc' : some i = some c := hc
          rw [← hc']; exact hel.1
        pv := fun c hc => by
          have hc' : some i = some c := hc
          obtain rfl : i = c := Option.some.inj hc'
          exact ⟨s.g.elections.length, by simp⟩
        mv := fun c hc hne => by
          obtain ⟨k, hk⟩ := hn.mv c hc hne
          exact ⟨k, List.mem_cons_of_mem _ hk⟩
        elec := by intro T hT; simp at hT
        vf := hn.vf }
  | electCrash i o =>
    exact h.upd i (by intro t v c hx; simpa [Glob.send, Glob.held] using hx) rfl (h.n i).restart
  | electFail i o =>
    have hn := h.n i
    have hel := (hn.elec _ hp.2.1).2 rfl
    refine h.upd i (by intro t v c hx; simpa [Glob.send] using hx) rfl ?_
    exact {
      pt := hn.pt
      v1 := hn.v1
      vmem := by
        intro he
        have he' : (s.node i).term = (s.node i).pterm := he
        omega
      pv := hn.pv
      mv := by intro c hc; simp at hc
      elec := by intro T hT; simp at hT
      vf := hn.vf }
  | becomeLeader i q =>
    apply vinv_sysAppend
    exact h.upd i (fun _ _ _ h => h) rfl ((h.n i).congr rfl rfl rfl rfl rfl rfl)
  | voteBegin i t cand claim =>
    refine h.node i ((h.n i).frame _ ?_)
    intro f hf
    rcases List.mem_cons.mp hf with rfl | hf
    · exact ⟨hp.2.1, hp.2.2⟩
    · exact (h.n i).vf f hf
  | voteEnd i f ok grantOk =>
    obtain ⟨hf, hp, _⟩ := hp
    simp only [eff]
    obtain ⟨h1, h2⟩ := (h.n i).voteFinish hf hp ok grantOk
    by_cases hv : (voteFinish (s.node i) f ok grantOk).2 = true
    · rw [if_pos hv]
      obtain ⟨h3, h4⟩ := h2 hv
      refine h.vote i ⟨f.reqTerm, i, f.cand, s.g.elections.length⟩ rfl rfl ?_ h3 (h4 _)
      intro t w c hx
      simp only [Glob.send, Glob.voted, List.mem_cons, Msg.vr.injEq] at hx
      rcases hx with ⟨rfl, rfl, rfl⟩ | hx
      · exact Or.inr ⟨rfl, rfl, rfl, ((h.n w).vf f hf).2⟩
      · exact Or.inl hx
    · rw [if_neg hv]
      exact h.node i (h1 (by simpa using hv))
  | voteDrop i f =>
    exact h.node i ((h.n i).frame _ (fun g hg => (h.n i).vf g (List.mem_of_mem_erase hg)))
  | voteAgain i t cand =>
    refine ⟨h.vuniq, ?_, ?_, h.n⟩
    · intro t' v c hx
      simp only [eff, Glob.send, List.mem_cons, Msg.vr.injEq] at hx
      rcases hx with ⟨rfl, rfl, rfl⟩ | hx
      · obtain ⟨k, hk⟩ := (h.n v).mv c hp.2.2.2 hp.2.1
        exact ⟨k, by rw [← hp.2.2.1]; exact hk⟩
      · exact h.vr t' v c hx
    · intro t' v c hx
      simp only [eff, Glob.send, List.mem_cons, Msg.vr.injEq] at hx
      rcases hx with ⟨rfl, rfl, rfl⟩ | hx
      · exact hp.2.1
      · exact h.vrne t' v c hx
  | propose i ds => exact vinv_sysAppend h i _
  | changeConf i c => exact vinv_sysAppend h i _
  | sendAE i prev cnt c =>
    refine ⟨h.vuniq, ?_, ?_, h.n⟩
    · intro t v c hx; exact h.vr t v c (by simpa [eff, Glob.send] using hx)
    · intro t v c hx; exact h.vrne t v c (by simpa [eff, Glob.send] using hx)
  | recvAE i t prev pt es c ok gone =>
    have hn := handleAE_VN (h.n i) t prev pt es c ok gone
    simp only [eff]
    split
    · exact h.upd i (by intro t v c hx; simpa [Glob.send] using hx) rfl hn
    · exact h.node i hn
  | disk i => exact vinv_disk h i
  | commit i k q => exact h.upd i (fun _ _ _ h => h) rfl ((h.n i).congr rfl rfl rfl rfl rfl rfl)
  | apply i => exact h.upd i (fun _ _ _ h => h) rfl ((h.n i).congr rfl rfl rfl rfl rfl rfl)
  | crash i => exact h.upd i (fun _ _ _ h => h) rfl (h.n i).restart
  | saveSnap i k => exact h.upd i (fun _ _ _ h => h) rfl ((h.n i).congr rfl rfl rfl rfl rfl rfl)
  | sendIS i =>
    refine ⟨h.vuniq, ?_, ?_, h.n⟩
    · intro t v c hx; exact h.vr t v c (by simpa [eff, Glob.send] using hx)
    · intro t v c hx; exact h.vrne t v c (by simpa [eff, Glob.send] using hx)
  | recvIS i t K ok =>
    refine h.node i ?_
    have h1 : VN s.g.votes i (aeStepDown (s.node i) t ok) := by
      unfold aeStepDown; split
      · exact (h.n i).stepDown _ _
      · exact h.n i
    unfold handleIS
    dsimp only
    split
    · exact h1.congr rfl rfl rfl rfl rfl rfl
    · exact h1
  | copied i => exact h.node i ((h.n i).congr rfl rfl rfl rfl rfl rfl)
  | loaded i =>
    refine h.upd i (fun _ _ _ h => h) rfl ?_
    unfold handleLoaded
    split
    · split <;> exact (h.n i).congr rfl rfl rfl rfl rfl rfl
    · exact (h.n i).congr rfl rfl rfl rfl rfl rfl
  | dlDrop i => exact h.node i ((h.n i).congr rfl rfl rfl rfl rfl rfl)

theorem vinv_reachable {p : Params} {c0 : Conf N} {s : Sys N D} (h : Reachable p c0 s) :
    VInv s := by
  have : ∀ s' : Sys N D, Steps p c0 (initSys c0) s' → VInv s' := by
    intro s' hs
    induction hs with
    | refl => exact vinv_init c0
    | tail _ h2 ih => exact vinv_step ih h2
  exact this s h

end Braft.Raft
