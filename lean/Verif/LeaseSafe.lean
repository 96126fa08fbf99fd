import Verif.LeaseSteps
import Verif.Raft.StepsC
/-
The remaining steps of the timed lease model (those that add votes, leaders and contacts), and
the invariant of all reachable states.
-/
set_option linter.unusedVariables false
set_option linter.unusedSimpArgs false
set_option linter.unusedSectionVars false

namespace Braft.LeaseNet
open Braft.Lease
open Braft.Raft (Conf confStepOk)

variable {N : Type} [DecidableEq N] {P : Params N}

theorem mem_cons_ne {α : Type} {a b : α} {l : List α} (h : a ∈ b :: l) (hne : a ≠ b) : a ∈ l := by
  rcases List.mem_cons.mp h with h | h
  · exact absurd h hne
  · exact h

theorem setNd_pt {s : St N} {i : N} {n' : Nd N} (hp : (s.nd i).pterm ≤ n'.pterm) (j : N) :
    (s.nd j).pterm ≤ (updF s.nd i n' j).pterm := by
  by_cases hj : j = i
  · subst hj; rw [updF_same]; exact hp
  · rw [updF_other _ _ hj]; exact Nat.le_refl _

theorem setNd_lf {s : St N} {i : N} {n' : Nd N}
    (hl : ∀ T, (T, i) ∈ s.won → leads (s.nd i) T = false → leads n' T = false) (T : Nat) (x : N)
    (hw : (T, x) ∈ s.won) (hL : leads (s.nd x) T = false) : leads (updF s.nd i n' x) T = false := by
  by_cases hj : x = i
  · subst hj; rw [updF_same]; exact hl T hw hL
  · rw [updF_other _ _ hj]; exact hL

theorem inv_electSend {s : St N} (h : Inv P s) {i : N}
    (hp : pre P s (.electSend i)) (hc : Compat (eff P s (.electSend i))) :
    Inv P (eff P s (.electSend i)) := by
  have hel : (s.nd i).elect = some (s.nd i).term := hp
  obtain ⟨_, hvote, h2⟩ := (h.n i).el _ hel
  have hvote := hvote rfl
  obtain ⟨n', hn'⟩ : ∃ n' : Nd N, n' =
      { s.nd i with elect := none, sent := true, pterm := (s.nd i).term, pvote := some i } := ⟨_, rfl⟩
  have hE : Ext s (eff P s (.electSend i)) := {
    clk := fun _ => Nat.le_refl _
    msgs := fun _ h => List.mem_cons_of_mem _ h
    won := fun _ h => h
    votes := fun _ h => List.mem_cons_of_mem _ h
    recv := fun _ h => h
    hist := fun _ h => h
    recvn := fun _ h => Or.inl h
    pt := fun j => by
      have := setNd_pt (s := s) (i := i) (n' := n') (by rw [hn']; exact (h.n i).pt) j
      rw [hn'] at this; exact this
    lf := by
      have := setNd_lf (s := s) (i := i) (n' := n') (by rw [hn']; exact fun _ _ h => h)
      rw [hn'] at this; exact this
    wc := fun _ _ => rfl }
  have hold : ∀ c, ((s.nd i).term, i, c) ∈ s.votes → c = i := by
    intro c hc
    have := ((h.n i).vt _ c hc).2.2 rfl
    rw [hvote] at this
    injection this with this
    exact this.symm
  refine ⟨h.gi_ext hE hc h.g.hs h.g.hc ?_ (fun _ h => Or.inl h) ?_ ?_ ?_ ?_ ?_ ?_
    (fun _ _ h => Or.inl h) (fun _ _ h => Or.inl h), ?_⟩
  · exact fun T x a ha => Or.inl (mem_cons_ne ha (by intro h; cases h))
  · exact fun T p x a ha => Or.inl (mem_cons_ne ha (by intro h; cases h))
  · intro T p c hc
    rcases List.mem_cons.mp hc with h1 | h1
    · right
      injection h1 with h1 h3
      injection h3 with h3 h4
      subst h1 h3 h4
      intro c' hc'
      rcases List.mem_cons.mp hc' with h5 | h5
      · injection h5 with _ h5
        injection h5
      · exact hold c' h5
    · exact Or.inl h1
  · intro T p c hc hne
    rcases List.mem_cons.mp hc with h1 | h1
    · exfalso
      injection h1 with h1 h3
      injection h3 with h3 h4
      exact hne (h4.trans h3.symm)
    · exact Or.inl h1
  · exact fun T v c d ha => Or.inl (mem_cons_ne ha (by intro h; cases h))
  · intro T c d dt ha
    rcases List.mem_cons.mp ha with h1 | h1
    · right
      injection h1 with _ _ h1
      exact ((h.n i).dis d dt h1.symm).ext hE
    · exact Or.inl h1
  · exact fun T ha => Or.inl (mem_cons_ne ha (by intro h; cases h))
  · intro j
    show NI P _ j (updF s.nd i _ j)
    by_cases hj : j = i
    · subst hj
      rw [updF_same]
      have hn := h.n j
      have hpt := hn.pt
      exact {
        pt := Nat.le_refl _
        flc := hn.flc
        opt := hn.opt
        llc := hn.llc
        rcp := fun r hr hi => Nat.le_trans (hn.rcp r hr hi) hn.pt
        fls := by
          intro r hr hi
          rcases hn.fls r hr hi with h1 | h1 | h1
          · exact Or.inl h1
          · exact Or.inr (Or.inl (h1.ext hE))
          · exact Or.inr (Or.inr (h1.ext hE (h.g.rc r hr).1 (Nat.le_refl _)))
        fll := fun y hy => ⟨(hn.fll y hy).1, (hn.fll y hy).2.1, Nat.le_trans (hn.fll y hy).2.2 hn.pt⟩
        vt := by
          intro T c hc
          rcases List.mem_cons.mp hc with h1 | h1
          · injection h1 with h1 h3
            injection h3 with h3 h4
            subst h1 h4
            exact ⟨Nat.le_refl _, fun _ => rfl, fun _ => hvote⟩
          · have h3 := hn.vt T c h1
            refine ⟨Nat.le_trans h3.1 hpt, fun h4 => ?_, h3.2.2⟩
            rw [← hvote]; exact h3.2.2 h4
        pv := by
          intro c hc
          injection hc with hc
          subst hc
          exact List.mem_cons_self
        mv := fun c hc => (hn.mv c hc).imp id (fun h => List.mem_cons_of_mem _ h)
        el := fun e he => by cases he
        cand := fun _ _ => ⟨rfl, List.mem_cons_self, h2⟩
        sf := by
          intro h1 h3
          refine ⟨(hn.sf h1 h3).1.ext h.g hE ?_, rfl⟩
          rw [(hn.cand h1 (hn.sf h1 h3).2).1]
          exact Nat.le_refl _
        dis := fun d dt hd => (hn.dis d dt hd).ext hE
        wn := fun T hT => ⟨Nat.le_trans (hn.wn T hT).1 hpt, (hn.wn T hT).2⟩
        ld := hn.ld
        lr := hn.lr
        rt := hn.rt
        ac := hn.ac
        aet := fun h1 a ha => hn.aet h1 a (mem_cons_ne ha (by intro h; cases h))
        rd := hn.rd
        pe := hn.pe
        pr := hn.pr
        ls := hn.ls
        t1 := Nat.le_trans hn.t1 hpt
        mem := hn.mem
        cf := hn.cf
        tsc := hn.tsc
        rtc := hn.rtc
        t0c := hn.t0c
        rdy := hn.rdy
        tr := hn.tr }
    · rw [updF_other _ _ hj]
      refine (h.n j).ext h.g hE ⟨fun _ h _ => h, ?_, fun _ h => h, ?_⟩ (Nat.le_refl _)
      · intro T c hc
        refine mem_cons_ne hc ?_
        intro h1
        injection h1 with _ h1
        injection h1 with h1 _
        exact hj h1
      · exact fun T a ha => mem_cons_ne ha (by intro h; cases h)

theorem inv_voteGrant {s : St N} (h : Inv P s) {i : N} {t : Nat} {c : N}
    {d : Option (Option N × Nat)} (hp : pre P s (.voteGrant i t c d)) (hc : Compat (eff P s (.voteGrant i t c d))) :
    Inv P (eff P s (.voteGrant i t c d)) := by
  obtain ⟨hm, hci, hle, hv, hor⟩ := hp
  have hn := h.n i
  have hpt := hn.pt
  have hrole : (grant (s.nd i) t c).role = .follower := stepDown_role _ _
  have hterm : (grant (s.nd i) t c).term = t := by
    show (stepDown (s.nd i) t).term = t
    unfold stepDown
    simp only []
    split
    · rfl
    · show (s.nd i).term = t; omega
  have hE : Ext s (eff P s (.voteGrant i t c d)) := {
    clk := fun _ => Nat.le_refl _
    msgs := fun _ h => List.mem_cons_of_mem _ h
    won := fun _ h => h
    votes := fun _ h => List.mem_cons_of_mem _ h
    recv := fun _ h => h
    hist := fun _ h => h
    recvn := fun _ h => Or.inl h
    pt := fun j => setNd_pt (n' := grant (s.nd i) t c) (by show _ ≤ t; omega) j
    lf := setNd_lf (n' := grant (s.nd i) t c) (fun T _ _ => leads_role (Or.inl hrole))
    wc := fun _ _ => rfl }
  -- the node has no other vote in this term
  have hold : ∀ c', (t, i, c') ∈ s.votes → False := by
    intro c' hc'
    obtain ⟨h1, _, h3⟩ := hn.vt _ c' hc'
    rcases hor with h4 | h4
    · omega
    · have := h3 (by omega)
      rw [h4] at this; cases this
  have hvok : VOk P s t i := fun r hr hi _ => (h.votable hv hr hi).imp id (fun h => h.mono hle)
  have hvok' : VOk P (eff P s (.voteGrant i t c d)) t i := by
    intro r hr hi hlt
    rcases hvok r hr hi hlt with h1 | h1
    · exact Or.inl (h1.ext hE)
    · exact Or.inr (h1.ext hE (h.g.rc r hr).1 (Nat.le_refl _))
  refine ⟨h.gi_ext hE hc h.g.hs h.g.hc ?_ (fun _ h => Or.inl h) ?_ ?_ ?_ ?_ ?_ ?_
    (fun _ _ h => Or.inl h) (fun _ _ h => Or.inl h), ?_⟩
  · exact fun T x a ha => Or.inl (mem_cons_ne ha (by intro h; cases h))
  · exact fun T p x a ha => Or.inl (mem_cons_ne ha (by intro h; cases h))
  · intro T p c' hc
    rcases List.mem_cons.mp hc with h1 | h1
    · right
      injection h1 with h1 h3
      injection h3 with h3 h4
      subst h1 h3 h4
      intro c'' hc'
      rcases List.mem_cons.mp hc' with h5 | h5
      · injection h5 with _ h5
        injection h5
      · exact (hold c'' h5).elim
    · exact Or.inl h1
  · intro T p c' hc hne
    rcases List.mem_cons.mp hc with h1 | h1
    · right
      injection h1 with h1 h3
      injection h3 with h3 h4
      subst h1 h3 h4
      exact hvok'
    · exact Or.inl h1
  · intro T v c' d' ha
    rcases List.mem_cons.mp ha with h1 | h1
    · right
      injection h1 with h1 h3 h4 h5
      subst h1 h3 h4
      refine ⟨hci, List.mem_cons_self, fun dt hdt => ?_⟩
      rw [h5] at hdt
      split at hdt
      · next hc =>
        injection hdt with hdt
        rw [Bool.and_eq_true] at hc
        rw [← hdt]
        refine ⟨hn.ld hc.1, ?_⟩
        show leads (updF s.nd v _ v) _ = false
        rw [updF_same]
        exact leads_role (Or.inl hrole)
      · cases hdt
    · exact Or.inl h1
  · exact fun T c d dt ha => Or.inl (mem_cons_ne ha (by intro h; cases h))
  · exact fun T ha => Or.inl (mem_cons_ne ha (by intro h; cases h))
  · intro j
    show NI P _ j (updF s.nd i _ j)
    by_cases hj : j = i
    · subst hj
      rw [updF_same]
      have hs := hn.stepDown t
      have hlead : leads (grant (s.nd j) t c) (grant (s.nd j) t c).term = true → False := by
        intro h; rw [leads_role (Or.inl hrole)] at h; cases h
      have hll0 : (grant (s.nd j) t c).ll.term = 0 :=
        Classical.byContradiction fun hc => by
          have := (hs.lr hc).1
          rw [stepDown_role] at this; cases this
      have hfl : (stepDown (s.nd j) t).fl = (s.nd j).fl := by
        unfold stepDown; simp only []; split <;> rfl
      exact {
        pt := by rw [hterm]; exact Nat.le_refl _
        flc := hs.flc
        opt := hs.opt
        llc := hs.llc
        rcp := fun r hr hi => by have := hn.rcp r hr hi; show r.t ≤ t; omega
        fls := by
          intro r hr hi
          rcases hs.fls r hr hi with h1 | h1 | h1
          · exact Or.inl h1
          · exact Or.inr (Or.inl (h1.ext hE))
          · exact Or.inr (Or.inr (h1.ext hE (h.g.rc r hr).1 (Nat.le_refl _)))
        fll := fun y hy => ⟨(hs.fll y hy).1, (hs.fll y hy).2.1, by
          have h5 := hs.fll y hy
          have h6 := hs.pt
          have h7 : (stepDown (s.nd j) t).term = t := hterm
          rw [h7] at h6
          exact Nat.le_trans h5.2.2 h6⟩
        vt := by
          intro T c' hc
          rcases List.mem_cons.mp hc with h1 | h1
          · injection h1 with h1 h3
            injection h3 with h3 h4
            subst h1 h4
            exact ⟨Nat.le_refl _, fun _ => rfl, fun _ => rfl⟩
          · have h3 := (hn.vt T c' h1).1
            have hne : T ≠ t := fun h4 => hold c' (h4 ▸ h1)
            refine ⟨by show T ≤ t; omega, fun h4 => absurd (show T = t from h4) hne, fun h4 => ?_⟩
            rw [hterm] at h4
            exact absurd h4 hne
        pv := by
          intro c' hc
          injection hc with hc
          subst hc
          exact List.mem_cons_self
        mv := by
          intro c' hc
          injection hc with hc
          subst hc
          right
          rw [hterm]
          exact List.mem_cons_self
        el := by
          intro e he
          have he' : (s.nd j).elect = some e := by
            replace he : (stepDown (s.nd j) t).elect = some e := he
            unfold stepDown at he; simp only [] at he; split at he <;> exact he
          obtain ⟨h1, h3, h4⟩ := hn.el e he'
          rw [hterm]
          refine ⟨by omega, fun h5 => ?_, h4⟩
          exfalso
          rcases hor with h6 | h6
          · omega
          · have := h3 (by omega)
            rw [h6] at this; cases this
        cand := fun h => by rw [hrole] at h; cases h
        sf := fun h => by rw [hrole] at h; cases h
        dis := fun d dt hd => (hs.dis d dt hd).ext hE
        wn := fun T hT => ⟨by have := (hn.wn T hT).1; show T ≤ t; omega,
          fun _ h => by rw [hrole] at h; cases h⟩
        ld := fun h => (hlead h).elim
        lr := fun h => absurd hll0 h
        rt := fun h => (hlead h).elim
        ac := fun h => (hlead h).elim
        aet := fun h => (hlead h).elim
        rd := fun h => (hlead h).elim
        pe := hs.pe
        pr := fun h => absurd hll0 h
        ls := fun h => absurd hll0 h
        t1 := by have := hn.t1; show 1 ≤ t; omega
        mem := fun h => (hlead h).elim
        cf := fun h => (hlead h).elim
        tsc := hs.tsc
        rtc := hs.rtc
        t0c := hs.t0c
        rdy := fun h => absurd hll0 h
        tr := fun h => by rw [hrole] at h; cases h }
    · rw [updF_other _ _ hj]
      refine (h.n j).ext h.g hE ⟨fun _ h _ => h, ?_, fun _ h => h, ?_⟩ (Nat.le_refl _)
      · intro T c' hc
        refine mem_cons_ne hc ?_
        intro h1
        injection h1 with _ h1
        injection h1 with h1 _
        exact hj h1
      · exact fun T a ha => mem_cons_ne ha (by intro h; cases h)

theorem inv_becomeLeader {s : St N} (h : Inv P s) {i : N} {c : Conf N} {q : List (N × Option Nat)}
    (hp : pre P s (.becomeLeader i c q)) (hc : Compat (eff P s (.becomeLeader i c q))) :
    Inv P (eff P s (.becomeLeader i c q)) := by
  obtain ⟨hr, hs, hmaj, hq⟩ := hp
  have hn := h.n i
  have hpt := hn.pt
  obtain ⟨hpterm, hvote, h2⟩ := hn.cand hr hs
  -- the quorum
  have hB : ∀ p, decide (p ∈ q.map Prod.fst) = true →
      ((s.nd i).term, p, i) ∈ s.votes ∧ VOk P s (s.nd i).term p := by
    intro p hp
    rw [decide_eq_true_eq] at hp
    obtain ⟨v, hv, rfl⟩ := List.mem_map.mp hp
    have := hq v hv
    by_cases hvi : v.1 = i
    · rw [if_pos hvi] at this
      rw [hvi]
      exact ⟨hvote, (hn.sf hr this).1⟩
    · rw [if_neg hvi] at this
      obtain ⟨h1, h3, _⟩ := h.g.vr _ _ _ _ this
      exact ⟨h3, h.g.vo _ _ _ h3 h1⟩
  have hnw : ∀ x, ((s.nd i).term, x) ∈ s.won → False := by
    intro x hx
    have h1 := hc.1 _ (List.mem_cons_of_mem _ hx) _ (List.mem_cons_self (a := ((s.nd i).term, i)) (l := s.won)) rfl
    injection h1 with _ h1
    rw [h1] at hx
    exact (hn.wn _ hx).2 rfl hr
  have hE : Ext s (eff P s (.becomeLeader i c q)) := {
    clk := fun _ => Nat.le_refl _
    msgs := fun _ h => h
    won := fun _ h => List.mem_cons_of_mem _ h
    votes := fun _ h => h
    recv := fun _ h => h
    hist := fun _ h => h
    recvn := fun _ h => Or.inl h
    pt := fun j => setNd_pt (n' := LeaseNet.becomeLeader i c (s.nd i) (s.clk i)) (Nat.le_refl _) j
    lf := setNd_lf (n' := LeaseNet.becomeLeader i c (s.nd i) (s.clk i)) (by
      intro T hw _
      refine leads_ne ?_
      intro ht
      replace ht : (s.nd i).term = T := ht
      rw [← ht] at hw
      exact hnw i hw)
    wc := by
      intro w hw
      show (if w.1 = (s.nd i).term then c else s.wconf w.1) = s.wconf w.1
      rw [if_neg]
      intro h1
      obtain ⟨w1, w2⟩ := w
      replace h1 : w1 = (s.nd i).term := h1
      rw [h1] at hw
      exact hnw _ hw }
  have hWext : ∀ p, decide (p ∈ q.map Prod.fst) = true →
      WOk P (eff P s (.becomeLeader i c q)) (s.nd i).term p := by
    intro p hp
    refine WOk.ext h.g hE (h.vote_le (hB p hp).1) ?_
    intro r hr' hrp hrt
    rcases (hB p hp).2 r hr' hrp hrt with h1 | h1 | ⟨w, h3, h4, h5⟩
    · exact Or.inl h1
    · exact Or.inr (Or.inl h1)
    · refine Or.inr (Or.inr ⟨w, h3, h4, ?_⟩)
      have : w.1 ≠ (s.nd i).term := by
        intro h6
        obtain ⟨w1, w2⟩ := w
        replace h6 : w1 = (s.nd i).term := h6
        rw [h6] at h3
        exact hnw _ h3
      omega
  refine ⟨h.gi_ext hE hc h.g.hs h.g.hc (fun _ _ _ h => Or.inl h) (fun _ h => Or.inl h)
    (fun _ _ _ _ h => Or.inl h) (fun _ _ _ h => Or.inl h) (fun _ _ _ h _ => Or.inl h)
    (fun _ _ _ _ h => Or.inl h) (fun _ _ _ _ h => Or.inl h) (fun _ h => Or.inl h) ?_ ?_, ?_⟩
  · intro T c' hw
    rcases List.mem_cons.mp hw with h1 | h1
    · right
      injection h1 with h1 h3
      subst h1 h3
      refine ⟨_, ?_, fun p hp => ⟨(hB p hp).1, hWext p hp⟩⟩
      show (if (s.nd c').term = (s.nd c').term then c else s.wconf (s.nd c').term).Quorum _
      rw [if_pos rfl]
      exact hmaj
    · exact Or.inl h1
  · intro T c hw
    rcases List.mem_cons.mp hw with h1 | h1
    · right
      injection h1 with h1 _
      omega
    · exact Or.inl h1
  · intro j
    show NI P _ j (updF s.nd i _ j)
    by_cases hj : j = i
    · subst hj
      rw [updF_same]
      exact {
        pt := hn.pt
        flc := hn.flc
        opt := hn.opt
        llc := hn.llc
        rcp := hn.rcp
        fls := by
          intro r hr' hi
          right; right
          have h1 := hn.rcp r hr' hi
          have h3 := (h.g.rc r hr').1
          refine Or.inr ⟨_, List.mem_cons_self, ?_, Nat.le_refl _⟩
          show r.t < (s.nd j).term
          rcases Nat.lt_or_eq_of_le (Nat.le_trans h1 hpt) with h4 | h4
          · exact h4
          · rw [h4] at h3; exact (hnw _ h3).elim
        fll := fun y hy => by cases hy
        vt := hn.vt
        pv := hn.pv
        mv := hn.mv
        el := hn.el
        cand := fun h => by cases h
        sf := fun h => by cases h
        dis := fun d dt hd => (hn.dis d dt hd).ext hE
        wn := by
          intro T hT
          refine ⟨?_, fun _ h => by cases h⟩
          rcases List.mem_cons.mp hT with h1 | h1
          · injection h1 with h1 _
            rw [h1]; exact Nat.le_of_eq hpterm.symm
          · exact (hn.wn T h1).1
        ld := fun _ => List.mem_cons_self
        lr := fun _ => ⟨rfl, rfl⟩
        rt := fun _ p => Or.inl (Nat.le_refl _)
        ac := fun _ p hp => by cases hp
        aet := fun _ a ha => (hnw _ (h.g.ae _ _ _ ha).1).elim
        rd := fun _ h => by cases h
        pe := fun e he => Nat.le_succ_of_le (hn.pe e he)
        pr := by
          intro _ he
          exfalso
          have := hn.pe _ he
          exact absurd this (Nat.not_succ_le_self _)
        ls := fun _ h => absurd rfl h
        t1 := hn.t1
        mem := fun _ p _ => Or.inr (Or.inl (Nat.le_refl _))
        cf := fun _ c' h => by cases h
        tsc := Nat.zero_le _
        rtc := fun _ => Nat.le_refl _
        t0c := Nat.le_refl _
        rdy := fun _ h => absurd rfl h
        tr := fun h => by cases h }
    · rw [updF_other _ _ hj]
      refine (h.n j).ext h.g hE ⟨fun _ h _ => h, fun _ _ h => h, ?_, fun _ _ h => h⟩ (Nat.le_refl _)
      intro T hT
      refine mem_cons_ne hT ?_
      intro h1
      injection h1 with _ h1
      exact hj h1

theorem inv_sendAE {s : St N} (h : Inv P s) {i : N}
    (hp : pre P s (.sendAE i)) (hc : Compat (eff P s (.sendAE i))) :
    Inv P (eff P s (.sendAE i)) := by
  have hl : leads (s.nd i) (s.nd i).term = true := hp
  have hE : Ext s (eff P s (.sendAE i)) := {
    clk := fun _ => Nat.le_refl _
    msgs := fun _ h => List.mem_cons_of_mem _ h
    won := fun _ h => h
    votes := fun _ h => h
    recv := fun _ h => h
    hist := fun _ h => h
    recvn := fun _ h => Or.inl h
    pt := fun j => Nat.le_refl _
    lf := fun _ _ _ h => h
    wc := fun _ _ => rfl }
  refine ⟨h.gi_ext hE hc h.g.hs h.g.hc ?_ (fun _ h => Or.inl h) ?_ (fun _ _ _ h => Or.inl h)
    (fun _ _ _ h _ => Or.inl h) ?_ ?_ ?_ (fun _ _ h => Or.inl h) (fun _ _ h => Or.inl h), ?_⟩
  · intro T x a ha
    rcases List.mem_cons.mp ha with h1 | h1
    · right
      injection h1 with h1 h3 h4
      subst h1 h3 h4
      exact ⟨(h.n x).ld hl, Nat.le_refl _⟩
    · exact Or.inl h1
  · exact fun T p x a ha => Or.inl (mem_cons_ne ha (by intro h; cases h))
  · exact fun T v c d ha => Or.inl (mem_cons_ne ha (by intro h; cases h))
  · exact fun T c d dt ha => Or.inl (mem_cons_ne ha (by intro h; cases h))
  · exact fun T ha => Or.inl (mem_cons_ne ha (by intro h; cases h))
  · intro j
    show NI P _ j (s.nd j)
    have hn := h.n j
    by_cases hj : j = i
    · subst hj
      exact { hn with
        fls := by
          intro r hr hi
          rcases hn.fls r hr hi with h1 | h1 | h1
          · exact Or.inl h1
          · exact Or.inr (Or.inl (h1.ext hE))
          · exact Or.inr (Or.inr (h1.ext hE (h.g.rc r hr).1 (Nat.le_refl _)))
        sf := by
          intro h1 h3
          rw [leads_role (Or.inr h1)] at hl
          cases hl
        dis := fun d dt hd => (hn.dis d dt hd).ext hE
        aet := by
          intro h1 a ha
          rcases List.mem_cons.mp ha with h3 | h3
          · injection h3 with _ _ h3
            rw [h3]; exact hn.t0c
          · exact hn.aet h1 a h3
        ls := hn.ls }
    · refine hn.ext h.g hE ⟨fun _ h _ => h, fun _ _ h => h, fun _ h => h, ?_⟩ (Nat.le_refl _)
      intro T a ha
      refine mem_cons_ne ha ?_
      intro h1
      injection h1 with _ h1 _
      exact hj h1

theorem handleAE_role (n : Nd N) (t : Nat) (x : N) (now : Nat) :
    (handleAE n t x now).role = .follower := by
  unfold handleAE
  simp only []
  split
  · exact stepDown_role _ _
  · next hc => exact Classical.byContradiction fun h => hc (Or.inr h)

/-- The node behind `handleAE` before the lease is renewed. -/
theorem handleAE_eq (n : Nd N) (t : Nat) (x : N) (now : Nat) :
    ∃ m, handleAE n t x now = { m with leader := some x, fl := m.fl.renew x now, flT := t } ∧
      (m = stepDown n t ∨ (m = n ∧ ¬ n.term < t)) := by
  unfold handleAE
  simp only []
  split
  · exact ⟨_, rfl, Or.inl rfl⟩
  · next hc => exact ⟨_, rfl, Or.inr ⟨rfl, fun h => hc (Or.inl h)⟩⟩

theorem inv_recvAE {s : St N} (h : Inv P s) (hst : P.strict = true) {i : N} {t : Nat} {x : N}
    {a : Nat} (hp : pre P s (.recvAE i t x a)) (hc : Compat (eff P s (.recvAE i t x a))) :
    Inv P (eff P s (.recvAE i t x a)) := by
  obtain ⟨hm, hle, hxi, hstr⟩ := hp
  have hstr := hstr hst
  have hn := h.n i
  have hpt := hn.pt
  obtain ⟨hw, ha⟩ := h.g.ae _ _ _ hm
  have hrole := handleAE_role (s.nd i) t x (s.clk i)
  obtain ⟨m, hme, hmd⟩ := handleAE_eq (s.nd i) t x (s.clk i)
  have hmp : m.pterm = t ∧ m.term = t := by
    rcases hmd with hmd | ⟨hmd, hlt⟩
    · rw [hmd]
      unfold stepDown
      simp only []
      split
      · exact ⟨rfl, rfl⟩
      · exact ⟨hstr (by omega), by show (s.nd i).term = t; omega⟩
    · rw [hmd]
      exact ⟨hstr (by omega), by omega⟩
  have hmn : NI P s i m := by
    rcases hmd with hmd | ⟨hmd, _⟩
    · rw [hmd]; exact hn.stepDown t
    · rw [hmd]; exact hn
  have hE : Ext s (eff P s (.recvAE i t x a)) := {
    clk := fun _ => Nat.le_refl _
    msgs := fun _ h => h
    won := fun _ h => h
    votes := fun _ h => h
    recv := fun _ h => List.mem_cons_of_mem _ h
    hist := fun _ h => h
    recvn := by
      intro r hr
      rcases List.mem_cons.mp hr with h1 | h1
      · right
        rw [h1]
        show (s.nd i).pterm ≤ t
        omega
      · exact Or.inl h1
    pt := fun j => setNd_pt (n' := handleAE (s.nd i) t x (s.clk i))
      (by rw [hme]; show _ ≤ m.pterm; omega) j
    lf := setNd_lf (n' := handleAE (s.nd i) t x (s.clk i))
      (fun T _ _ => leads_role (Or.inl hrole))
    wc := fun _ _ => rfl }
  refine ⟨h.gi_ext hE hc h.g.hs h.g.hc (fun _ _ _ h => Or.inl h) ?_ (fun _ _ _ _ h => Or.inl h)
    (fun _ _ _ h => Or.inl h) (fun _ _ _ h _ => Or.inl h) (fun _ _ _ _ h => Or.inl h)
    (fun _ _ _ _ h => Or.inl h) (fun _ h => Or.inl h) (fun _ _ h => Or.inl h) (fun _ _ h => Or.inl h), ?_⟩
  · intro r hr
    rcases List.mem_cons.mp hr with h1 | h1
    · right
      rw [h1]
      exact ⟨hw, ha, h.g.hc, hxi, hm⟩
    · exact Or.inl h1
  · intro j
    show NI P _ j (updF s.nd i _ j)
    by_cases hj : j = i
    · subst hj
      rw [updF_same]
      have hlead : ∀ n' : Nd N, n'.role = .follower → leads n' n'.term = true → False := by
        intro n' hn' h; rw [leads_role (Or.inl hn')] at h; cases h
      rw [hme] at hrole ⊢
      have hll0 : m.ll.term = 0 := Classical.byContradiction fun hc => by
        have := (hmn.lr hc).1
        rw [show m.role = .follower from hrole] at this; cases this
      exact {
        pt := hmn.pt
        flc := hmn.flc
        opt := hmn.opt
        llc := hmn.llc
        rcp := by
          intro r hr hi
          show r.t ≤ m.pterm
          rcases List.mem_cons.mp hr with h1 | h1
          · rw [h1, hmp.1]; exact Nat.le_refl _
          · exact hmn.rcp r h1 hi
        fls := by
          intro r hr hi
          left
          show r.vec j ≤ s.clk j
          rcases List.mem_cons.mp hr with h1 | h1
          · rw [h1]; exact Nat.le_refl _
          · exact (h.g.hs _ (h.g.rc r h1).2.2.1).1 j
        fll := by
          intro y hy
          replace hy : some x = some y := hy
          injection hy with hy
          subst hy
          refine ⟨hw, fun r hr hi => ?_, by show t ≤ m.pterm; omega⟩
          show r.t ≤ t
          rcases List.mem_cons.mp hr with h1 | h1
          · rw [h1]; exact Nat.le_refl _
          · have := hmn.rcp r h1 hi
            omega
        vt := hmn.vt
        pv := hmn.pv
        mv := hmn.mv
        el := hmn.el
        cand := fun h => by rw [hrole] at h; cases h
        sf := fun h => by rw [hrole] at h; cases h
        dis := fun d dt hd => (hmn.dis d dt hd).ext hE
        wn := fun T hT => ⟨(hmn.wn T hT).1, fun _ h => by rw [hrole] at h; cases h⟩
        ld := fun h => (hlead _ hrole h).elim
        lr := fun h => absurd hll0 h
        rt := fun h => (hlead _ hrole h).elim
        ac := fun h => (hlead _ hrole h).elim
        aet := fun h => (hlead _ hrole h).elim
        rd := fun h => (hlead _ hrole h).elim
        pe := hmn.pe
        pr := fun h => absurd hll0 h
        ls := fun h => absurd hll0 h
        t1 := hmn.t1
        mem := fun h => (hlead _ hrole h).elim
        cf := fun h => (hlead _ hrole h).elim
        tsc := hmn.tsc
        rtc := hmn.rtc
        t0c := hmn.t0c
        rdy := fun h => absurd hll0 h
        tr := fun h => by rw [hrole] at h; cases h }
    · rw [updF_other _ _ hj]
      refine (h.n j).ext h.g hE ⟨?_, fun _ _ h => h, fun _ h => h, fun _ _ h => h⟩ (Nat.le_refl _)
      intro r hr hi
      refine mem_cons_ne hr ?_
      intro h1
      rw [h1] at hi
      exact hj hi.symm

/-- All reachable states satisfy the invariant. -/
theorem inv_reach (hok : P.Ok) (hst : P.strict = true) (hmb : P.memb = true) (hpb : P.probe = true) {s : St N} (h : Reach P s) :
    Inv P s := by
  induction h with
  | init c => exact inv_init hok hpb c
  | step a _ hp hc ih =>
    cases a with
    | tick v => exact inv_tick ih hp hc
    | raise i t => exact inv_raise ih hc
    | resign i w => exact inv_resign ih hp hc
    | setLeader i y => exact inv_setLeader ih hc
    | electStart i b => exact inv_electStart ih hp hc
    | electSend i => exact inv_electSend ih hp hc
    | electCrash i => exact inv_electCrash ih hp hc
    | grantSelf i => exact inv_grantSelf ih hp hc
    | grantSelfByLeader i y dt => exact inv_grantSelfByLeader ih hp hc
    | retry i y dt => exact inv_retry ih hp hc
    | voteExpire i t c d dt => exact inv_voteExpire ih hp hc
    | voteGrant i t c d => exact inv_voteGrant ih hp hc
    | voteAgain i t c d => exact inv_voteAgain ih hp hc
    | becomeLeader i c q => exact inv_becomeLeader ih hp hc
    | sendAE i => exact inv_sendAE ih hp hc
    | recvAE i t x a => exact inv_recvAE ih hst hp hc
    | ackAE i t x a => exact inv_ackAE ih hp hc
    | recvAck i p a => exact inv_recvAck ih hp hc
    | commitFirst i => exact inv_commitFirst ih hp hc
    | startRepl i p => exact inv_startRepl ih hp hc
    | changeConf i c => exact inv_changeConf ih hp hc
    | commitConf i => exact inv_commitConf ih hp hc
    | leaseStart i e => exact inv_leaseStart ih hmb hp hc
    | renew i => exact inv_renew ih hmb hp hc
    | transfer i => exact inv_transfer ih hp hc
    | transferTimeout i => exact inv_transferTimeout ih hp hc
    | crash i => exact inv_crash ih hc
    | retime i t => exact inv_retime ih hp hc
    | retime2 i t d => exact inv_retime2 ih hp hc

/-- While the lease of a leader is valid nobody has been elected in a later term. -/
theorem lease_excludes (hok : P.Ok) (hst : P.strict = true) (hmb : P.memb = true) (hpb : P.probe = true) {s : St N} (h : Reach P s)
    {i : N} (hv : (s.nd i).ll.info true (s.clk i) = .valid) {T : Nat} {c : N}
    (hw : (T, c) ∈ s.won) : T ≤ (s.nd i).ll.term := by
  have hI := inv_reach hok hst hmb hpb h
  have hn := hI.n i
  unfold Leader.info at hv
  simp only [Bool.not_true, Bool.false_eq_true, if_false] at hv
  by_cases h1 : (s.nd i).ll.term = 0
  · rw [if_pos h1] at hv; cases hv
  by_cases h2 : (s.nd i).ll.ts = 0
  · rw [if_neg h1, if_pos h2] at hv; cases hv
  by_cases h3 : s.clk i < (s.nd i).ll.ts + (s.nd i).ll.timeout
  · obtain ⟨hr, ht⟩ := hn.lr h1
    have hl := leads_leader hr
    rw [ht]
    refine Classical.byContradiction fun hc => ?_
    have hlt : (s.nd i).term < T := by omega
    rcases hI.dead (hn.ld hl) (hn.rdy h1 h2) hw hlt with h4 | ⟨B, c', hB, hc', h4⟩
    · rw [Left, hl] at h4; cases h4
    · -- the configuration of the lease and that of the election have intersecting quorums
      have hS : ∃ c'', LOk c'' s i (s.nd i).term (s.nd i).ll.ts ∧ Raft.Adj c'' c' := by
        cases hcu : (s.nd i).cu with
        | none =>
          have h5 : c' = (s.nd i).cc := by
            rcases hc' with h | h
            · exact h
            · rw [hcu] at h; cases h
          rw [h5]
          refine ⟨_, ?_, Raft.Adj.refl _⟩
          rcases hn.ls h1 h2 with h6 | h6
          · rw [cur_eq hcu] at h6; exact h6
          · exact h6.1
        | some c1 =>
          have hadj := Raft.adj_of_confStep (hn.cf hl c1 hcu).1
          rw [hcu] at hc'
          rcases hn.ls h1 h2 with h6 | h6
          · rw [cur_some hcu] at h6
            refine ⟨_, h6, ?_⟩
            rcases hc' with h | h
            · rw [h]; exact hadj.symm
            · injection h with h; rw [h]; exact Raft.Adj.refl _
          · refine ⟨_, h6.1, ?_⟩
            rcases hc' with h | h
            · rw [h]; exact Raft.Adj.refl _
            · injection h with h; rw [h]; exact hadj
      obtain ⟨c'', hS, hadj⟩ := hS
      obtain ⟨p, hp1, hp2⟩ := hadj _ _ hS hB
      obtain ⟨h6, h7⟩ := h4 p hp2
      rw [contact_iff] at hp1
      rcases hp1 with h8 | ⟨r, hr', h8, h9, h10, h11⟩
      · subst h8
        have := hn.pt
        omega
      · have := h7 r hr' h8 h9 h10
        unfold Exp at this
        rw [h10] at this
        have := hn.llc
        omega
  · rw [if_neg h1, if_neg h2, if_neg h3] at hv; cases hv

end Braft.LeaseNet
