import Verif.LeaseRaftFoll
/-
The coupling invariant of Verif/LeaseRaftInv.lean: AppendEntries, InstallSnapshot and restarts.
-/
set_option linter.unusedVariables false
set_option linter.unusedSimpArgs false
set_option linter.unusedSectionVars false

namespace Braft.LeaseRaft
open Braft

variable {N D : Type} [DecidableEq N] [DecidableEq D] {P : LeaseNet.Params N} {c0 : Raft.Conf N}

/-! ### AppendEntries -/

/-- `check_step_down` in the timed part. -/
def checkStep (m : LeaseNet.Nd N) (t : Nat) : LeaseNet.Nd N :=
  if m.term < t ∨ m.role ≠ .follower then LeaseNet.stepDown m t else m

theorem roleOf_follower {r : LeaseNet.Role} : roleOf r = .follower ↔ r = .follower := by cases r <;> simp [roleOf]

theorem NC.check {n : Raft.NodeSt N D} {m : LeaseNet.Nd N} (h : NC n m) (t : Nat) :
    NC (Raft.aeStepDown n t true) (checkStep m t) := by
  unfold Raft.aeStepDown checkStep
  have hr : m.role ≠ .follower ↔ n.role ≠ .follower := by
    rw [← h.role, Ne, Ne, roleOf_follower]
  by_cases hc : n.term < t ∨ n.role ≠ .follower
  · rw [if_pos hc, if_pos (by rw [h.term, hr]; exact hc)]; exact h.stepDown t
  · rw [if_neg hc, if_neg (by rw [h.term, hr]; exact hc)]; exact h

theorem aeStepDown_role (n : Raft.NodeSt N D) (t : Nat) (ok : Bool) : (Raft.aeStepDown n t ok).role = .follower := by
  unfold Raft.aeStepDown
  by_cases hc : n.term < t ∨ n.role ≠ .follower
  · rw [if_pos hc, Raft.stepDown_role]
  · rw [if_neg hc]
    exact Classical.byContradiction fun h => hc (Or.inr h)

theorem aeStepDown_queue (n : Raft.NodeSt N D) (t : Nat) (ok : Bool) : (Raft.aeStepDown n t ok).queue = n.queue := by
  unfold Raft.aeStepDown; split
  · exact stepDown_queue _ _ _
  · rfl

theorem check_ll {s : LeaseNet.St N} {i : N} (hn : LeaseNet.NI P s i (s.nd i)) (t : Nat) : (checkStep (s.nd i) t).ll.term = 0 := by
  unfold checkStep
  by_cases hc : (s.nd i).term < t ∨ (s.nd i).role ≠ .follower
  · rw [if_pos hc]; exact stepDown_ll hn t
  · rw [if_neg hc]
    refine ll_zero hn (fun hl => hc (Or.inr ?_))
    rw [hl]; exact nofun

theorem check_cuAt (m : LeaseNet.Nd N) (t : Nat) : (checkStep m t).cuAt = m.cuAt := by
  unfold checkStep; split
  · exact stepDown_cuAt _ _
  · rfl

/-- What `handle_append_entries_request` leaves of a node besides its log. -/
theorem handleAE_same (n : Raft.NodeSt N D) (t prev pt : Nat) (es : List (Raft.Entry N D)) (c : Nat) (ok gone : Bool) :
    let n' := (Raft.handleAE n t prev pt es c ok gone).1
    let n1 := Raft.aeStepDown n t ok
    n'.term = n1.term ∧ n'.vote = n1.vote ∧ n'.pterm = n1.pterm ∧ n'.pvote = n1.pvote ∧ n'.elect = n1.elect ∧
      n'.role = n1.role ∧ n'.ready = n1.ready ∧
      ∀ T m k, Raft.Op.ackF T m k ∈ n'.queue → Raft.Op.ackF T m k ∈ n.queue ∨ (T = t ∧ m.length ≤ prev + es.length) := by
  dsimp only
  unfold Raft.handleAE
  dsimp only
  have hq := aeStepDown_queue n t ok
  split
  · exact ⟨rfl, rfl, rfl, rfl, rfl, rfl, rfl, fun T m k h => Or.inl (by rw [← hq]; exact h)⟩
  split
  · exact ⟨rfl, rfl, rfl, rfl, rfl, rfl, rfl, fun T m k h => Or.inl (by rw [← hq]; exact h)⟩
  split
  · exact ⟨rfl, rfl, rfl, rfl, rfl, rfl, rfl, fun T m k h => Or.inl (by rw [← hq]; exact h)⟩
  · refine ⟨rfl, rfl, rfl, rfl, rfl, rfl, rfl, fun T m k h => ?_⟩
    unfold Raft.aeAppend at h
    dsimp only at h
    rw [hq] at h
    simp only [List.mem_append, List.mem_singleton] at h
    rcases h with (h | h) | h
    · exact Or.inl h
    · exfalso
      unfold Raft.resolveOps at h
      dsimp only at h
      rcases List.mem_append.mp h with h | h
      · split at h
        · cases (List.mem_replicate.mp h).2
        · cases h
      · obtain ⟨e, _, h⟩ := List.mem_map.mp h
        cases h
    · injection h with h1 h2 h3
      refine Or.inr ⟨h1, ?_⟩
      rw [h2, List.length_take]
      exact Nat.min_le_left _ _

theorem ji_recvAE {j : J N D} (h : JI c0 j) (hL : LeaseNet.Inv P j.l) {i : N} {a : AeR N D} {gone : Bool}
    (hm : more P c0 j (.recvAE i a gone)) : JI c0 (eff P c0 j (.recvAE i a gone)) := by
  obtain ⟨h1, h2, h3, h4, h5, h6, h7, h8⟩ := handleAE_same (j.r.node i) a.t a.prev a.pt a.es a.c true gone
  have hi : (LeaseNet.eff P j.l (.recvAE i a.t a.x a.at_)).nd i = LeaseNet.handleAE (j.l.nd i) a.t a.x (j.l.clk i) :=
    LeaseNet.updF_same _ _ _
  have hnc := (h.nc i).check a.t
  have hrec : ((a, i) : AeR N D × N) ∈ (a, i) :: j.recs := List.mem_cons_self
  have key : ∀ g' : Raft.Glob N D, g'.commits = j.r.g.commits → g'.elections = j.r.g.elections →
      (∀ T v u, Raft.Msg.ar T v u ∈ g'.msgs → Raft.Msg.ar T v u ∈ j.r.g.msgs ∨
        ∃ b : AeR N D, (b, v) ∈ (a, i) :: j.recs ∧ b.t = T ∧ u ≤ b.prev + b.es.length) →
      JI c0 ⟨⟨Raft.updF j.r.node i (Raft.handleAE (j.r.node i) a.t a.prev a.pt a.es a.c true gone).1, g'⟩,
        LeaseNet.eff P j.l (.recvAE i a.t a.x a.at_), j.aes, (a, i) :: j.recs⟩ := by
    intro g' hc he ha
    refine foll_upd h (i := i) ?_ ?_ ?_ ?_ rfl rfl rfl ?_ (fun _ h => h) (fun _ h => List.mem_cons_of_mem _ h) hc he
      (fun _ h => List.mem_cons_of_mem _ h) ?_ ?_ ha
    · rw [hi]
      refine ⟨?_, ?_, ?_, ?_, ?_, ?_, ?_⟩
      · rw [h1]; exact hnc.term
      · rw [h2]; exact hnc.vote
      · rw [h3]; exact hnc.pterm
      · rw [h4]; exact hnc.pvote
      · rw [h5]; exact hnc.elect
      · rw [h6]; exact hnc.role
      · rw [h6, aeStepDown_role]; exact fun h => nomatch h
    · rw [h6, aeStepDown_role]; exact fun h => nomatch h
    · rw [hi]; exact check_ll (hL.n i) a.t
    · exact fun k hk => LeaseNet.updF_other _ _ hk
    · rw [hi]
      show (checkStep (j.l.nd i) a.t).cuAt ≤ _
      rw [check_cuAt]; exact h.cuc i
    · intro p hp
      rcases List.mem_cons.mp hp with rfl | hp
      · exact Or.inr ⟨hm.1, _, List.mem_cons_self, rfl, rfl, rfl, rfl⟩
      · exact Or.inl hp
    · intro t m c hx
      rcases h8 t m c hx with h9 | ⟨h9, h10⟩
      · exact Or.inl h9
      · exact Or.inr ⟨a, hrec, h9.symm, h10⟩
  show JI c0 ⟨(let r := Raft.handleAE (j.r.node i) a.t a.prev a.pt a.es a.c true gone
      if r.2 then (⟨Raft.updF j.r.node i r.1, j.r.g.send (.ar a.t i (a.prev + a.es.length))⟩ : Raft.Sys N D)
      else Raft.setNode j.r i r.1), LeaseNet.eff P j.l (.recvAE i a.t a.x a.at_), j.aes, (a, i) :: j.recs⟩
  dsimp only
  split
  · refine key (j.r.g.send (.ar a.t i (a.prev + a.es.length))) rfl rfl (fun T v u hx => ?_)
    rcases List.mem_cons.mp hx with h9 | h9
    · injection h9 with h9 h10 h11
      subst h9; subst h10; subst h11
      exact Or.inr ⟨a, hrec, rfl, Nat.le_refl _⟩
    · exact Or.inl h9
  · exact key j.r.g rfl rfl (fun _ _ _ h => Or.inl h)

theorem pre_recvAE {j : J N D} (h : JI c0 j) {i : N} {a : AeR N D} {gone : Bool}
    (hp : Raft.pre norm c0 j.r (.recvAE i a.t a.prev a.pt a.es a.c true gone)) (hm : more P c0 j (.recvAE i a gone)) :
    LeaseNet.pre P j.l (.recvAE i a.t a.x a.at_) :=
  ⟨h.aem a hm.1, by rw [(h.nc i).term]; exact hp.2.1, hm.2.1, hm.2.2⟩

/-! ### Restarts -/

/-- The timed part of a node that restarts. -/
def rebooted (P : LeaseNet.Params N) (j : J N D) (i : N) : LeaseNet.Nd N :=
  if (j.r.node i).pterm < (Raft.restart (j.r.node i)).term then
    LeaseNet.stepDown (LeaseNet.boot P i (j.l.nd i).pterm (j.l.nd i).pvote (j.l.clk i)) (Raft.restart (j.r.node i)).term
  else LeaseNet.boot P i (j.l.nd i).pterm (j.l.nd i).pvote (j.l.clk i)

theorem updF_twice {β : Type} (f : N → β) (i : N) (a b : β) :
    LeaseNet.updF (LeaseNet.updF f i a) i b = LeaseNet.updF f i b := by
  funext k
  unfold LeaseNet.updF
  split <;> rfl

theorem behind_foldl {j : J N D} {i : N} {s : LeaseNet.St N}
    (hs : s.nd = LeaseNet.updF j.l.nd i (LeaseNet.boot P i (j.l.nd i).pterm (j.l.nd i).pvote (j.l.clk i))) :
    (behind j i).foldl (LeaseNet.eff P) s = { s with nd := LeaseNet.updF j.l.nd i (rebooted P j i) } := by
  unfold behind rebooted
  by_cases hc : (j.r.node i).pterm < (Raft.restart (j.r.node i)).term
  · rw [if_pos hc, if_pos hc]
    show LeaseNet.setNd s i (LeaseNet.stepDown (s.nd i) _) = _
    unfold LeaseNet.setNd
    rw [hs, LeaseNet.updF_same, updF_twice]
  · rw [if_neg hc, if_neg hc]
    show s = _
    rw [← hs]

theorem NC.boot {n : Raft.NodeSt N D} {m : LeaseNet.Nd N} (h : NC n m) (i : N) (now : Nat) :
    NC (Raft.restart n) (if n.pterm < (Raft.restart n).term then
      LeaseNet.stepDown (LeaseNet.boot P i m.pterm m.pvote now) (Raft.restart n).term
      else LeaseNet.boot P i m.pterm m.pvote now) := by
  have ht : (Raft.restart n).term = if n.pterm < Raft.lastTerm (Raft.snapMerge n.psnap n.disk)
      then Raft.lastTerm (Raft.snapMerge n.psnap n.disk) + 1 else n.pterm := by
    unfold Raft.restart; dsimp only
    by_cases hb : n.pterm < Raft.lastTerm (Raft.snapMerge n.psnap n.disk) <;> simp [hb]
  have hv : (Raft.restart n).vote = if n.pterm < Raft.lastTerm (Raft.snapMerge n.psnap n.disk)
      then none else n.pvote := by
    unfold Raft.restart; dsimp only
    by_cases hb : n.pterm < Raft.lastTerm (Raft.snapMerge n.psnap n.disk) <;> simp [hb]
  have hpt : (Raft.restart n).pterm = (Raft.restart n).term := rfl
  have hpv : (Raft.restart n).pvote = (Raft.restart n).vote := rfl
  by_cases hb : n.pterm < Raft.lastTerm (Raft.snapMerge n.psnap n.disk)
  · rw [if_pos hb] at ht hv
    rw [if_pos (by omega)]
    unfold LeaseNet.stepDown LeaseNet.boot
    dsimp only
    rw [if_pos (by rw [h.pterm]; omega)]
    exact ⟨rfl, hv.symm, hpt.symm, by rw [hpv, hv], rfl, rfl, fun h => nomatch h⟩
  · rw [if_neg hb] at ht hv
    rw [if_neg (by omega)]
    exact ⟨by rw [ht]; exact h.pterm, by rw [hv]; exact h.pvote, by rw [hpt, ht]; exact h.pterm,
      by rw [hpv, hv]; exact h.pvote, rfl, rfl, fun h => nomatch h⟩

theorem ji_boot {j : J N D} (h : JI c0 j) {i : N} {g' : Raft.Glob N D} {l' : LeaseNet.St N}
    (hl : l'.nd = LeaseNet.updF j.l.nd i (rebooted P j i)) (hw : l'.won = j.l.won) (hwc : l'.wconf = j.l.wconf)
    (hclk : l'.clk = j.l.clk) (hlm : ∀ m ∈ j.l.msgs, m ∈ l'.msgs) (hlr : ∀ r ∈ j.l.recv, r ∈ l'.recv)
    (hc : g'.commits = j.r.g.commits) (he : g'.elections = j.r.g.elections)
    (ha : ∀ T v u, Raft.Msg.ar T v u ∈ g'.msgs → Raft.Msg.ar T v u ∈ j.r.g.msgs) :
    JI c0 ⟨⟨Raft.updF j.r.node i (Raft.restart (j.r.node i)), g'⟩, l', j.aes, j.recs⟩ := by
  have hi : l'.nd i = rebooted P j i := by rw [hl]; exact LeaseNet.updF_same _ _ _
  refine foll_upd h (i := i) ?_ (fun h => nomatch h) ?_ ?_ hw hwc hclk ?_ hlm hlr hc he (fun _ h => h) (fun _ h => Or.inl h) ?_
    (fun T v u h => Or.inl (ha T v u h))
  · rw [hi]; exact (h.nc i).boot i _
  · rw [hi]; unfold rebooted LeaseNet.stepDown LeaseNet.boot
    dsimp only
    repeat' split
    all_goals first | rfl | contradiction
  · intro k hk; rw [hl]; exact LeaseNet.updF_other _ _ hk
  · rw [hi]; unfold rebooted
    split
    · rw [stepDown_cuAt]; exact Nat.zero_le _
    · exact Nat.zero_le _
  · intro t m c hx
    have hx' : Raft.Op.ackF t m c ∈ Raft.loadOps (j.r.node i).psnap := hx
    unfold Raft.loadOps at hx'
    split at hx'
    · cases hx'
    · rw [List.mem_singleton] at hx'; cases hx'

theorem ji_crash {j : J N D} (h : JI c0 j) {i : N} : JI c0 (eff P c0 j (.crash i)) := by
  show JI c0 ⟨⟨Raft.updF j.r.node i (Raft.restart (j.r.node i)), j.r.g.held i (j.r.node i).psnap⟩,
    (behind j i).foldl (LeaseNet.eff P) (LeaseNet.eff P j.l (.crash i)), j.aes, j.recs⟩
  rw [behind_foldl rfl]
  exact ji_boot h rfl rfl rfl rfl (fun _ h => h) (fun _ h => h) rfl rfl (fun _ _ _ h => h)

theorem ji_electCrash {j : J N D} (h : JI c0 j) {i : N} {o : Raft.Log N D} : JI c0 (eff P c0 j (.electCrash i o)) := by
  show JI c0 ⟨⟨Raft.updF j.r.node i (Raft.restart (j.r.node i)),
      (j.r.g.held i (j.r.node i).psnap).send (.rv (j.r.node i).term i (Raft.lastId o))⟩,
    (behind j i).foldl (LeaseNet.eff P) (LeaseNet.eff P j.l (.electCrash i)), j.aes, j.recs⟩
  rw [behind_foldl rfl]
  refine ji_boot h rfl rfl rfl rfl (fun _ h => List.mem_cons_of_mem _ h) (fun _ h => h) rfl rfl (fun T v u hm => ?_)
  rcases List.mem_cons.mp hm with h1 | h1
  · cases h1
  · exact h1

/-! ### InstallSnapshot -/

theorem is_foldl {j : J N D} {i : N} {t : Nat} {x : N} (hle : (j.l.nd i).term ≤ t) :
    (isActs j i t x).foldl (LeaseNet.eff P) j.l = LeaseNet.setNd j.l i { checkStep (j.l.nd i) t with leader := some x } := by
  unfold isActs checkStep
  by_cases h1 : (j.l.nd i).term < t
  · rw [if_pos h1, if_pos (Or.inl h1)]
    show LeaseNet.setNd (LeaseNet.setNd j.l i _) i { (LeaseNet.setNd j.l i _).nd i with leader := some x } = _
    unfold LeaseNet.setNd
    dsimp only
    rw [LeaseNet.updF_same, updF_twice]
  · have ht : t = (j.l.nd i).term := by omega
    rw [if_neg h1]
    by_cases h2 : (j.l.nd i).role ≠ .follower
    · rw [if_pos h2, if_pos (Or.inr h2)]
      show LeaseNet.setNd (LeaseNet.eff P j.l (.resign i false)) i
        { (LeaseNet.eff P j.l (.resign i false)).nd i with leader := some x } = _
      unfold LeaseNet.setNd LeaseNet.eff
      dsimp only
      unfold LeaseNet.setNd
      dsimp only
      rw [LeaseNet.updF_same, updF_twice, ht]
      rfl
    · rw [if_neg h2, if_neg (by rintro (h | h); exact h1 h; exact h2 h)]
      rfl

theorem ji_recvIS {j : J N D} (h : JI c0 j) (hL : LeaseNet.Inv P j.l) {i : N} {t : Nat} {K : Raft.Log N D} {x : N}
    (hp : Raft.pre norm c0 j.r (.recvIS i t K true)) : JI c0 (eff P c0 j (.recvIS i t K x)) := by
  show JI c0 ⟨Raft.setNode j.r i (Raft.handleIS (j.r.node i) t K true),
    (isActs j i t x).foldl (LeaseNet.eff P) j.l, j.aes, j.recs⟩
  rw [is_foldl (by rw [(h.nc i).term]; exact hp.2)]
  have hnc := (h.nc i).check t
  have hi : (LeaseNet.setNd j.l i { checkStep (j.l.nd i) t with leader := some x }).nd i =
    { checkStep (j.l.nd i) t with leader := some x } := LeaseNet.updF_same _ _ _
  have hro := aeStepDown_role (j.r.node i) t true
  have hsame : ∀ n', n' = Raft.handleIS (j.r.node i) t K true → n'.role = .follower ∧ n'.queue = (j.r.node i).queue ∧
      NC n' { checkStep (j.l.nd i) t with leader := some x } := by
    intro n' hn'
    subst hn'
    unfold Raft.handleIS
    dsimp only
    split
    · exact ⟨hro, aeStepDown_queue _ _ _, hnc.term, hnc.vote, hnc.pterm, hnc.pvote, hnc.elect, hnc.role, hnc.sent⟩
    · exact ⟨hro, aeStepDown_queue _ _ _, hnc.term, hnc.vote, hnc.pterm, hnc.pvote, hnc.elect, hnc.role, hnc.sent⟩
  obtain ⟨h1, h2, h3⟩ := hsame _ rfl
  refine foll_upd h (i := i) ?_ (by rw [h1]; exact nofun) ?_ (fun k hk => LeaseNet.updF_other _ _ hk) rfl rfl rfl ?_
    (fun _ h => h) (fun _ h => h) rfl rfl (fun _ h => h) (fun _ h => Or.inl h) ?_ (fun _ _ _ h => Or.inl h)
  · rw [hi]; exact h3
  · rw [hi]; exact check_ll (hL.n i) t
  · rw [hi]
    show (checkStep (j.l.nd i) t).cuAt ≤ _
    rw [check_cuAt]; exact h.cuc i
  · intro t' m c hx
    rw [h2] at hx
    exact Or.inl hx

end Braft.LeaseRaft
