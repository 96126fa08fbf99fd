import Verif.LeaseRaftRest
/-
Executions of the joint model are executions of both parts, and the coupling invariant of Verif/LeaseRaftInv.lean
holds in all of them.
-/
set_option linter.unusedVariables false
set_option linter.unusedSimpArgs false
set_option linter.unusedSectionVars false

namespace Braft.LeaseRaft
open Braft

variable {N D : Type} [DecidableEq N] [DecidableEq D] {P : LeaseNet.Params N} {c0 : Raft.Conf N}

/-! ### An election is won -/

theorem roleOf_candidate {r : LeaseNet.Role} : roleOf r = .candidate ↔ r = .candidate := by cases r <;> simp [roleOf]

theorem pre_becomeLeader {j : J N D} (h : JI c0 j) {i : N} {q : List (N × Option Nat)}
    (hp : Raft.pre norm c0 j.r (.becomeLeader i (q.map Prod.fst))) (hm : more P c0 j (.becomeLeader i q)) :
    LeaseNet.pre P j.l (.becomeLeader i (j.r.node i).bconf q) := by
  refine ⟨roleOf_candidate.mp (by rw [(h.nc i).role]; exact hp.1), ?_, hp.2.2.1, hm⟩
  rw [(h.nc i).sent hp.1]; exact hp.2.1

theorem ji_becomeLeader {j : J N D} (h : JI c0 j) (hI : Raft.Inv c0 j.r) (hL : LeaseNet.Inv P j.l) {i : N}
    {q : List (N × Option Nat)} (hp : Raft.pre norm c0 j.r (.becomeLeader i (q.map Prod.fst)))
    (hI' : Raft.Inv c0 (raftEff c0 j (.becomeLeader i q))) : JI c0 (eff P c0 j (.becomeLeader i q)) := by
  have hn := hI.n i
  have hr := hp.1
  obtain ⟨hlt, hbc, _⟩ := hn.cand hr
  have hrole : (j.l.nd i).role = .candidate := roleOf_candidate.mp (by rw [(h.nc i).role]; exact hr)
  let es : Raft.Log N D := [⟨(j.r.node i).term, .conf (Raft.confOf c0 (j.r.node i).log)⟩]
  let n0 : Raft.NodeSt N D := { j.r.node i with role := .leader, ready := false }
  let e0 : Raft.Elec N D := ⟨(j.r.node i).term, i, (j.r.node i).log⟩
  let m' : LeaseNet.Nd N := LeaseNet.becomeLeader i (j.r.node i).bconf (j.l.nd i) (j.l.clk i)
  have hnode : (raftEff c0 j (.becomeLeader i q)).node = Raft.updF (Raft.updF j.r.node i n0) i (Raft.appendOwn n0 es) := by
    show Raft.updF (Raft.updF j.r.node i n0) i (Raft.appendOwn (Raft.updF j.r.node i n0 i) es) = _
    rw [Raft.updF_same]
  have hi : (raftEff c0 j (.becomeLeader i q)).node i = Raft.appendOwn n0 es := by rw [hnode, Raft.updF_same]
  have hele : (raftEff c0 j (.becomeLeader i q)).g.elections = j.r.g.elections ++ [e0] := rfl
  have hcom : (raftEff c0 j (.becomeLeader i q)).g.commits = j.r.g.commits := rfl
  have hmsg : (raftEff c0 j (.becomeLeader i q)).g.msgs = j.r.g.msgs := rfl
  have hm' : (LeaseNet.eff P j.l (.becomeLeader i (j.r.node i).bconf q)).nd i = m' := LeaseNet.updF_same _ _ _
  have hnew : ∀ e ∈ j.r.g.elections, e.term ≠ (j.r.node i).term := by
    intro e he ht
    have h1 := elec_unique hI'.g (r := e) (r' := e0) (by rw [hele]; exact List.mem_append_left _ he)
      (by rw [hele]; exact List.mem_append_right _ List.mem_cons_self) ht
    have h2 := (hn.el e he (by rw [h1])).2 hr
    omega
  have hli : Raft.lastConfIdx ((j.r.node i).log ++ es) = (j.r.node i).log.length + 1 := Raft.lastConfIdx_conf rfl
  have hcl := hn.cl
  show JI c0 ⟨raftEff c0 j (.becomeLeader i q), LeaseNet.eff P j.l (.becomeLeader i (j.r.node i).bconf q), j.aes, j.recs⟩
  refine h.upd2 (i := i) ?_
  exact {
    rn := fun k hk => by dsimp only; rw [hnode, Raft.updF_other _ _ hk, Raft.updF_other _ _ hk]
    ln := fun k hk => LeaseNet.updF_other _ _ hk
    com := fun _ h => h
    comn := fun _ h => Or.inl h
    clk := rfl
    aesn := fun _ h => Or.inl h
    recs := rfl
    recv := rfl
    aes := fun _ h => h
    lm := fun _ h => h
    nc := by
      dsimp only
      rw [hi, hm']
      have := h.nc i
      exact ⟨this.term, this.vote, this.pterm, this.pvote, this.elect, rfl, fun h => nomatch h⟩
    lc := fun _ => by
      dsimp only
      rw [hi, hm']
      exact {
        nr := fun _ => by
          refine ⟨rfl, ?_, ?_, ?_⟩
          · show (j.r.node i).bconf = Raft.confOf c0 ((j.r.node i).log ++ es)
            rw [Raft.confOf_concat, hbc]; rfl
          · show (j.r.node i).commit < Raft.lastConfIdx ((j.r.node i).log ++ es)
            rw [hli]; omega
          · show ∀ k, Raft.termAt ((j.r.node i).log ++ es) k = (j.r.node i).term → Raft.lastConfIdx ((j.r.node i).log ++ es) ≤ k
            intro k hk
            rw [hli]
            refine Classical.byContradiction fun hc => ?_
            have hkl : k ≤ (j.r.node i).log.length := by omega
            rw [Raft.termAt_take (by rw [List.length_append]; omega), take_app hkl] at hk
            by_cases h0 : (j.r.node i).log = []
            · rw [h0] at hk hlt
              have h1 : Raft.lastTerm ([] : Raft.Log N D) = 0 := rfl
              rw [List.take_nil] at hk
              omega
            · have := hI.g.mono _ (hn.glog.1 _ h0 (List.prefix_refl _)) _ (List.take_prefix k (j.r.node i).log)
              omega
        rd := fun hd => nomatch hd
        no := fun hd => nomatch hd
        so := fun hd => nomatch hd
        cm := fun K hK ht => by
          exfalso
          obtain ⟨r, h1, h2⟩ := hI.g.origin K (hI.g.com K hK).1
          refine hnew r h1 ?_
          rw [← h2.term]; exact ht }
    aeb := fun a ha hx _ ht => by
      exfalso
      dsimp only at ht ha
      rw [hi] at ht
      have ht' : (j.r.node i).term = a.t := ht
      have h1 := (hL.g.ae _ _ _ (h.aem a ha)).1
      rw [hx] at h1
      exact ((hL.n i).wn _ h1).2 (by rw [(h.nc i).term, ht']) hrole
    ap := by
      dsimp only
      rw [hi, hm']
      intro _ h2
      exact absurd rfl h2
    cuc := by dsimp only; rw [hm']; exact Nat.le_refl _
    won := fun T v => by
      show (T, v) ∈ ((j.l.nd i).term, i) :: j.l.won ↔ ∃ e ∈ j.r.g.elections ++ [e0], e.term = T ∧ e.node = v
      rw [List.mem_cons, (h.nc i).term]
      constructor
      · rintro (h1 | h1)
        · injection h1 with h1 h2
          exact ⟨e0, List.mem_append_right _ List.mem_cons_self, h1.symm, h2.symm⟩
        · obtain ⟨e, h2, h3⟩ := (h.won T v).mp h1
          exact ⟨e, List.mem_append_left _ h2, h3⟩
      · rintro ⟨e, h1, h2, h3⟩
        rcases List.mem_append.mp h1 with h4 | h4
        · exact Or.inr ((h.won T v).mpr ⟨e, h4, h2, h3⟩)
        · rw [List.mem_singleton] at h4
          subst h4
          left
          rw [← h2, ← h3]
    wc := fun e he => by
      show (if e.term = (j.l.nd i).term then (j.r.node i).bconf else j.l.wconf e.term) = _
      have he' : e ∈ j.r.g.elections ++ [e0] := he
      rw [(h.nc i).term]
      rcases List.mem_append.mp he' with h4 | h4
      · rw [if_neg (hnew e h4)]; exact h.wc e h4
      · rw [List.mem_singleton] at h4
        subst h4
        rw [if_pos rfl]; exact hbc
    ele := fun e he => by
      show e ∈ j.r.g.elections ++ [e0]
      exact List.mem_append_left _ he
    qf := by
      dsimp only
      rw [hi]
      intro t m c hm
      unfold Raft.appendOwn at hm
      dsimp only at hm
      simp only [List.mem_append, List.mem_map, List.mem_singleton] at hm
      rcases hm with (hm | ⟨e, _, hm⟩) | hm
      · exact hm
      · cases hm
      · cases hm
    ar := fun _ _ _ h => h }

/-! ### Start -/

theorem ji_init (c : N → Nat) : JI c0 (init P c0 c : J N D) where
  nc := fun _ => ⟨rfl, rfl, rfl, rfl, rfl, rfl, fun h => nomatch h⟩
  lc := fun _ h => nomatch h
  ap := fun _ h => absurd rfl h
  cuc := fun _ => Nat.zero_le _
  won := fun T v => ⟨(fun h => nomatch h), (fun h => by obtain ⟨_, h, _⟩ := h; cases h)⟩
  wc := fun _ h => nomatch h
  aem := fun _ h => nomatch h
  aeb := fun _ h => nomatch h
  rc := fun _ h => nomatch h
  qf := fun _ _ _ _ h => nomatch h
  ar := fun _ _ _ h => nomatch h

/-! ### Executions -/

theorem compat_leave {s s' : LeaseNet.St N} (h : LeaseNet.Compat s) (i : N) (hw : s'.won = s.won) (hwc : s'.wconf = s.wconf)
    (hn : ∀ k, k ≠ i → s'.nd k = s.nd k) (hi : (s'.nd i).role = .follower) : LeaseNet.Compat s' := by
  unfold LeaseNet.Compat
  rw [hw, hwc]
  refine ⟨h.1, fun w hm hl hr => ?_⟩
  by_cases hk : w.2 = i
  · rw [hk, LeaseNet.leads_role (Or.inl hi)] at hl; cases hl
  · rw [hn _ hk] at hl hr ⊢
    exact h.2 w hm hl hr

theorem reach_one {s : LeaseNet.St N} (h : LeaseNet.Reach P s) {a : LeaseNet.Act N} (hp : LeaseNet.pre P s a)
    (hc : LeaseNet.Compat ([a].foldl (LeaseNet.eff P) s)) : LeaseNet.Reach P ([a].foldl (LeaseNet.eff P) s) :=
  .step a h hp hc

theorem reach_two {s : LeaseNet.St N} (h : LeaseNet.Reach P s) {a b : LeaseNet.Act N} (hp : LeaseNet.pre P s a)
    (hc1 : LeaseNet.Compat (LeaseNet.eff P s a)) (hp2 : LeaseNet.pre P (LeaseNet.eff P s a) b)
    (hc : LeaseNet.Compat ([a, b].foldl (LeaseNet.eff P) s)) : LeaseNet.Reach P ([a, b].foldl (LeaseNet.eff P) s) :=
  .step b (.step a h hp hc1) hp2 hc

/-- A restart in the timed part. -/
theorem reach_boot {j : J N D} (h : JI c0 j) (hL : LeaseNet.Inv P j.l) (hR : LeaseNet.Reach P j.l) {i : N} {a : LeaseNet.Act N}
    (hp : LeaseNet.pre P j.l a) (ha : a = .crash i ∨ a = .electCrash i)
    (hc : LeaseNet.Compat ((a :: behind j i).foldl (LeaseNet.eff P) j.l)) :
    LeaseNet.Reach P ((a :: behind j i).foldl (LeaseNet.eff P) j.l) := by
  have hnd : (LeaseNet.eff P j.l a).nd i = LeaseNet.boot P i (j.l.nd i).pterm (j.l.nd i).pvote (j.l.clk i) := by
    rcases ha with rfl | rfl <;> exact LeaseNet.updF_same _ _ _
  have hc1 : LeaseNet.Compat (LeaseNet.eff P j.l a) := by
    refine compat_leave hL.g.cp i ?_ ?_ ?_ (by rw [hnd]; rfl)
    · rcases ha with rfl | rfl <;> rfl
    · rcases ha with rfl | rfl <;> rfl
    · intro k hk
      rcases ha with rfl | rfl <;> exact LeaseNet.updF_other _ _ hk
  unfold behind at hc ⊢
  split
  · next hlt =>
    rw [if_pos hlt] at hc
    refine reach_two hR hp hc1 ?_ hc
    show ((LeaseNet.eff P j.l a).nd i).term < _
    rw [hnd]
    show (j.l.nd i).pterm < _
    rw [(h.nc i).pterm]; exact hlt
  · exact .step a hR hp hc1

theorem reach_is {j : J N D} (h : JI c0 j) (hL : LeaseNet.Inv P j.l) (hR : LeaseNet.Reach P j.l) {i : N} {t : Nat} {x : N}
    (hc : LeaseNet.Compat ((isActs j i t x).foldl (LeaseNet.eff P) j.l)) :
    LeaseNet.Reach P ((isActs j i t x).foldl (LeaseNet.eff P) j.l) := by
  unfold isActs at hc ⊢
  by_cases h1 : (j.l.nd i).term < t
  · rw [if_pos h1] at hc ⊢
    have hnd : (LeaseNet.eff P j.l (.raise i t)).nd i = LeaseNet.stepDown (j.l.nd i) t := LeaseNet.updF_same _ _ _
    have hro : ((LeaseNet.eff P j.l (.raise i t)).nd i).role = .follower := by rw [hnd]; exact LeaseNet.stepDown_role _ _
    exact reach_two hR h1 (compat_leave hL.g.cp i rfl rfl (fun k hk => LeaseNet.updF_other _ _ hk) hro) hro hc
  · rw [if_neg h1] at hc ⊢
    by_cases h2 : (j.l.nd i).role ≠ .follower
    · rw [if_pos h2] at hc ⊢
      have hnd : (LeaseNet.eff P j.l (.resign i false)).nd i = LeaseNet.stepDown (j.l.nd i) (j.l.nd i).term :=
        LeaseNet.updF_same _ _ _
      have hro : ((LeaseNet.eff P j.l (.resign i false)).nd i).role = .follower := by rw [hnd]; exact LeaseNet.stepDown_role _ _
      exact reach_two hR (fun h => nomatch h) (compat_leave hL.g.cp i rfl rfl (fun k hk => LeaseNet.updF_other _ _ hk) hro) hro hc
    · rw [if_neg h2] at hc ⊢
      exact reach_one hR (Classical.not_not.mp h2) hc

theorem raft_reach {j : J N D} (hR : Raft.Reachable norm c0 j.r) {a : Act N D}
    (hp : ∀ ra, raftOf j a = some ra → Raft.pre norm c0 j.r ra) : Raft.Reachable norm c0 (raftEff c0 j a) := by
  unfold raftEff
  cases hr : raftOf j a with
  | none => exact hR
  | some ra => exact .tail hR ⟨ra, hp ra hr, rfl⟩

theorem ji_step {j : J N D} (h : JI c0 j) (hI : Raft.Inv c0 j.r) (hL : LeaseNet.Inv P j.l) {a : Act N D}
    (hp : pre P c0 j a) (hI' : Raft.Inv c0 (raftEff c0 j a)) : JI c0 (eff P c0 j a) := by
  obtain ⟨hp, hm⟩ := hp
  cases a with
  | lease a =>
    by_cases hN : Nonempty N
    · obtain ⟨d⟩ := hN
      exact ji_lease h d hm
    · exact {
        nc := fun i => absurd ⟨i⟩ hN
        lc := fun i => absurd ⟨i⟩ hN
        ap := fun i => absurd ⟨i⟩ hN
        cuc := fun i => absurd ⟨i⟩ hN
        won := fun _ i => absurd ⟨i⟩ hN
        wc := fun e => absurd ⟨e.node⟩ hN
        aem := fun a => absurd ⟨a.x⟩ hN
        aeb := fun a => absurd ⟨a.x⟩ hN
        rc := fun p => absurd ⟨p.2⟩ hN
        qf := fun i => absurd ⟨i⟩ hN
        ar := fun _ i => absurd ⟨i⟩ hN }
  | raft a => exact ji_raft h hI hL hm (hp _ rfl)
  | raise i t => exact ji_raise h hL
  | resign i w => exact ji_resign h hL
  | electStart i b => exact ji_electStart h hL hm
  | electSend i o => exact ji_electSend h hL
  | electCrash i o => exact ji_electCrash h
  | becomeLeader i q => exact ji_becomeLeader h hI hL (hp _ rfl) hI'
  | voteGrant i f d => exact ji_voteGrant h hI hL (hp _ rfl) hm
  | voteReject i f => exact ji_voteReject h hI hL hm
  | voteAgain i t c d => exact ji_voteAgain h hL
  | changeConf i c => exact ji_changeConf h hI hL (hp _ rfl)
  | sendAE i prev cnt c => exact ji_sendAE h hI hL (hp _ rfl)
  | recvAE i a gone => exact ji_recvAE h hL hm
  | commit i k q => exact ji_commit h hI hL (hp _ rfl)
  | crash i => exact ji_crash h
  | recvIS i t K x => exact ji_recvIS h hL (hp _ rfl)

theorem lease_step {j : J N D} (h : JI c0 j) (hI : Raft.Inv c0 j.r) (hL : LeaseNet.Inv P j.l) (hR : LeaseNet.Reach P j.l)
    {a : Act N D} (hp : pre P c0 j a) (hc : LeaseNet.Compat (eff P c0 j a).l) : LeaseNet.Reach P (eff P c0 j a).l := by
  obtain ⟨hp, hm⟩ := hp
  cases a with
  | lease a => exact reach_one hR hm.2.1 hc
  | raft a => exact hR
  | raise i t => exact reach_one hR (by show _ < t; rw [(h.nc i).term]; exact hm) hc
  | resign i w => exact reach_one (a := .resign i w) hR hm hc
  | electStart i b => exact reach_one (a := .electStart i b) hR hm hc
  | electSend i o =>
    exact reach_one hR (by show _ = some _; rw [(h.nc i).elect, (h.nc i).term]; exact (hp _ rfl).1) hc
  | electCrash i o =>
    exact reach_boot h hL hR (by show _ = some _; rw [(h.nc i).elect, (h.nc i).term]; exact (hp _ rfl).1) (Or.inr rfl) hc
  | becomeLeader i q => exact reach_one hR (pre_becomeLeader h (hp _ rfl) hm) hc
  | voteGrant i f d => exact reach_one hR (pre_voteGrant h hI (hp _ rfl) hm).2 hc
  | voteReject i f =>
    show LeaseNet.Reach P ((leaseOf j (.voteReject i f)).foldl (LeaseNet.eff P) j.l)
    have hc' : LeaseNet.Compat ((leaseOf j (.voteReject i f)).foldl (LeaseNet.eff P) j.l) := hc
    by_cases hlt : (j.r.node i).term < f.reqTerm
    · have hle : leaseOf j (.voteReject i f) = [.raise i f.reqTerm] := if_pos hlt
      rw [hle] at hc' ⊢
      exact reach_one hR (by show _ < _; rw [(h.nc i).term]; exact hlt) hc'
    · have hle : leaseOf j (.voteReject i f) = [] := if_neg hlt
      rw [hle]; exact hR
  | voteAgain i t c d =>
    obtain ⟨_, h2, h3, h4⟩ := hp _ rfl
    exact reach_one (a := .voteAgain i t c d) hR ⟨hm, h2, by rw [(h.nc i).term]; exact h3, by rw [(h.nc i).vote]; exact h4⟩ hc
  | changeConf i c => exact reach_one hR (pre_changeConf h (hp _ rfl) hm) hc
  | sendAE i prev cnt c => exact reach_one (a := .sendAE i) hR (h.leads (hp _ rfl).1) hc
  | recvAE i a gone => exact reach_one hR (pre_recvAE h (hp _ rfl) hm) hc
  | commit i k q =>
    show LeaseNet.Reach P ((commitActs j i k).foldl (LeaseNet.eff P) j.l)
    have hc' : LeaseNet.Compat ((commitActs j i k).foldl (LeaseNet.eff P) j.l) := hc
    have hpre := pre_commit h hI hL (hp _ rfl)
    unfold commitActs at hc' hpre ⊢
    by_cases h1 : (j.l.nd i).ready = false
    · rw [if_pos h1] at hc' hpre ⊢
      exact reach_one hR (hpre _ List.mem_cons_self) hc'
    · rw [if_neg h1] at hc' hpre ⊢
      by_cases h2 : (j.l.nd i).cu ≠ none ∧ Raft.lastConfIdx (j.r.node i).log ≤ k
      · rw [if_pos h2] at hc' hpre ⊢
        exact reach_one hR (hpre _ List.mem_cons_self) hc'
      · rw [if_neg h2]; exact hR
  | crash i => exact reach_boot h hL hR True.intro (Or.inl rfl) hc
  | recvIS i t K x => exact reach_is h hL hR hc

/-- An execution of the joint model is one of the Raft model and one of the timed model. -/
theorem reach_all (hok : P.Ok) (hst : P.strict = true) (hmb : P.memb = true) (hpb : P.probe = true) {j : J N D}
    (h : Reach P c0 j) : Raft.Reachable norm c0 j.r ∧ LeaseNet.Reach P j.l ∧ JI c0 j := by
  induction h with
  | init c => exact ⟨.refl, .init c, ji_init c⟩
  | @step j a _ hp ih =>
    obtain ⟨h1, h2, h3⟩ := ih
    have hI := Raft.inv_reachable h1
    have hL := LeaseNet.inv_reach hok hst hmb hpb h2
    have hr' := raft_reach h1 hp.1
    have hI' := Raft.inv_reachable hr'
    have hj' := ji_step h3 hI hL hp hI'
    exact ⟨hr', lease_step h3 hI hL h2 hp (hj'.compat hI'), hj'⟩

end Braft.LeaseRaft
