import Verif.LeaseRaftLead
/-
The coupling invariant of Verif/LeaseRaftInv.lean: events that make a node a follower or a candidate.
-/
set_option linter.unusedVariables false
set_option linter.unusedSimpArgs false
set_option linter.unusedSectionVars false

namespace Braft.LeaseRaft
open Braft

variable {N D : Type} [DecidableEq N] [DecidableEq D] {P : LeaseNet.Params N} {c0 : Raft.Conf N}

theorem foll_upd {j : J N D} (h : JI c0 j) {i : N} {n' : Raft.NodeSt N D} {g' : Raft.Glob N D} {l' : LeaseNet.St N}
    {recs' : List (AeR N D × N)}
    (hnc : NC n' (l'.nd i)) (hr : n'.role ≠ .leader) (hll : (l'.nd i).ll.term = 0)
    (hln : ∀ k, k ≠ i → l'.nd k = j.l.nd k) (hw : l'.won = j.l.won) (hwc : l'.wconf = j.l.wconf) (hclk : l'.clk = j.l.clk)
    (hcu : (l'.nd i).cuAt ≤ j.l.clk i) (hlm : ∀ m ∈ j.l.msgs, m ∈ l'.msgs) (hlr : ∀ r ∈ j.l.recv, r ∈ l'.recv)
    (hc : g'.commits = j.r.g.commits) (he : g'.elections = j.r.g.elections)
    (hrecs : ∀ p ∈ j.recs, p ∈ recs')
    (hrn : ∀ p ∈ recs', p ∈ j.recs ∨
      (p.1 ∈ j.aes ∧ ∃ r ∈ l'.recv, r.t = p.1.t ∧ r.p = p.2 ∧ r.x = p.1.x ∧ r.at_ = p.1.at_))
    (hq : ∀ t m c, Raft.Op.ackF t m c ∈ n'.queue → Raft.Op.ackF t m c ∈ (j.r.node i).queue ∨
      ∃ a : AeR N D, (a, i) ∈ recs' ∧ a.t = t ∧ m.length ≤ a.prev + a.es.length)
    (ha : ∀ T v u, Raft.Msg.ar T v u ∈ g'.msgs → Raft.Msg.ar T v u ∈ j.r.g.msgs ∨
      ∃ a : AeR N D, (a, v) ∈ recs' ∧ a.t = T ∧ u ≤ a.prev + a.es.length) :
    JI c0 ⟨⟨Raft.updF j.r.node i n', g'⟩, l', j.aes, recs'⟩ := by
  have hi : Raft.updF j.r.node i n' i = n' := by simp [Raft.updF]
  refine h.upd (i := i) ?_
  exact {
    rn := fun k hk => by simp [Raft.updF, hk]
    ln := hln
    com := hc
    ele := he
    won := hw
    wcf := hwc
    clk := fun k => by dsimp only; rw [hclk]; exact Nat.le_refl _
    aes := rfl
    recs := hrecs
    recn := hrn
    lm := hlm
    lr := hlr
    nc := by dsimp only; rw [hi]; exact hnc
    ld := by dsimp only; rw [hi]; exact fun h => absurd h hr
    ap := fun h1 => absurd hll h1
    cuc := by dsimp only; rw [hclk]; exact hcu
    qf := by dsimp only; rw [hi]; exact hq
    ar := fun T v u hm => by
      rcases ha T v u hm with h1 | h1
      · exact Or.inl h1
      · exact Or.inr (Or.inr h1) }

/-- `step_down` in both parts. -/
theorem NC.stepDown {n : Raft.NodeSt N D} {m : LeaseNet.Nd N} (h : NC n m) (t : Nat) :
    NC (Raft.stepDown n t true) (LeaseNet.stepDown m t) := by
  unfold Raft.stepDown LeaseNet.stepDown
  rw [h.term]
  by_cases hlt : n.term < t
  · rw [if_pos hlt]
    dsimp only
    rw [if_pos hlt]
    exact ⟨rfl, rfl, rfl, rfl, h.elect, rfl, fun h => nomatch h⟩
  · rw [if_neg hlt]
    dsimp only
    rw [if_neg hlt]
    exact ⟨rfl, h.vote, h.pterm, h.pvote, h.elect, rfl, fun h => nomatch h⟩

theorem stepDown_ll {s : LeaseNet.St N} {i : N} (hn : LeaseNet.NI P s i (s.nd i)) (t : Nat) :
    (LeaseNet.stepDown (s.nd i) t).ll.term = 0 := by
  have h1 : ∀ l : Lease.Leader, l = (if (s.nd i).role = .leader then (s.nd i).ll.onLeaderStop else (s.nd i).ll) → l.term = 0 := by
    intro l hl
    subst hl
    split
    · rfl
    · next hr =>
      refine Classical.byContradiction fun hc => hr (hn.lr hc).1
  unfold LeaseNet.stepDown
  dsimp only
  split <;> exact h1 _ rfl

theorem ll_zero {s : LeaseNet.St N} {i : N} (hn : LeaseNet.NI P s i (s.nd i)) (h : (s.nd i).role ≠ .leader) :
    (s.nd i).ll.term = 0 := Classical.byContradiction fun hc => h (hn.lr hc).1

theorem stepDown_cuAt (m : LeaseNet.Nd N) (t : Nat) : (LeaseNet.stepDown m t).cuAt = m.cuAt := by
  unfold LeaseNet.stepDown; dsimp only; split <;> rfl

theorem stepDown_queue (n : Raft.NodeSt N D) (t : Nat) (ok : Bool) : (Raft.stepDown n t ok).queue = n.queue := by
  unfold Raft.stepDown; split <;> rfl

theorem stepDown_nl (n : Raft.NodeSt N D) (t : Nat) (ok : Bool) : (Raft.stepDown n t ok).role ≠ .leader := by
  rw [Raft.stepDown_role]; exact nofun

theorem JI.stepDown {j : J N D} (h : JI c0 j) (hL : LeaseNet.Inv P j.l) (i : N) (t : Nat) {l' : LeaseNet.St N}
    (hl : l'.nd = (LeaseNet.setNd j.l i (LeaseNet.stepDown (j.l.nd i) t)).nd) (hw : l'.won = j.l.won) (hwc : l'.wconf = j.l.wconf)
    (hclk : l'.clk = j.l.clk) (hlm : ∀ m ∈ j.l.msgs, m ∈ l'.msgs) (hlr : ∀ r ∈ j.l.recv, r ∈ l'.recv) :
    JI c0 ⟨Raft.setNode j.r i (Raft.stepDown (j.r.node i) t true), l', j.aes, j.recs⟩ := by
  have hi : l'.nd i = LeaseNet.stepDown (j.l.nd i) t := by rw [hl]; exact LeaseNet.updF_same _ _ _
  refine foll_upd h (i := i) ?_ (stepDown_nl _ _ _) ?_ ?_ hw hwc hclk ?_ hlm hlr rfl rfl (fun _ h => h) (fun _ h => Or.inl h) ?_
    (fun _ _ _ h => Or.inl h)
  · rw [hi]; exact (h.nc i).stepDown t
  · rw [hi]; exact stepDown_ll (hL.n i) t
  · intro k hk; rw [hl]; exact LeaseNet.updF_other _ _ hk
  · rw [hi, stepDown_cuAt]; exact h.cuc i
  · rw [stepDown_queue]; exact fun _ _ _ h => Or.inl h

theorem ji_raise {j : J N D} (h : JI c0 j) (hL : LeaseNet.Inv P j.l) {i : N} {t : Nat} :
    JI c0 (eff P c0 j (.raise i t)) :=
  h.stepDown hL i t rfl rfl rfl rfl (fun _ h => h) (fun _ h => h)

theorem ji_resign {j : J N D} (h : JI c0 j) (hL : LeaseNet.Inv P j.l) {i : N} {w : Bool} :
    JI c0 (eff P c0 j (.resign i w)) := by
  refine h.stepDown hL i (j.r.node i).term ?_ rfl rfl rfl ?_ (fun _ h => h)
  · rw [← (h.nc i).term]; rfl
  · intro m hm
    show m ∈ (if w then _ else j.l.msgs)
    split
    · exact List.mem_cons_of_mem _ hm
    · exact hm

theorem ji_electStart {j : J N D} (h : JI c0 j) (hL : LeaseNet.Inv P j.l) {i : N} {b : Bool}
    (hm : more P c0 j (.electStart i b)) : JI c0 (eff P c0 j (.electStart i b)) := by
  have hi : (LeaseNet.setNd j.l i (LeaseNet.electStart i (j.l.nd i) b)).nd i = LeaseNet.electStart i (j.l.nd i) b :=
    LeaseNet.updF_same _ _ _
  have hll := ll_zero (hL.n i) (by
    rcases hm.1 with h1 | h1 <;> rw [h1] <;> exact nofun)
  refine foll_upd h (i := i) (l' := LeaseNet.setNd j.l i (LeaseNet.electStart i (j.l.nd i) b)) ?_ (fun h => nomatch h) ?_ ?_
    rfl rfl rfl ?_ (fun _ h => h) (fun _ h => h) rfl rfl (fun _ h => h) (fun _ h => Or.inl h) (fun _ _ _ h => Or.inl h)
    (fun _ _ _ h => Or.inl h)
  · rw [hi]
    have := h.nc i
    exact ⟨congrArg (· + 1) this.term, rfl, this.pterm, this.pvote, congrArg (fun x => some (x + 1)) this.term, rfl, fun _ => rfl⟩
  · rw [hi]; exact hll
  · exact fun k hk => LeaseNet.updF_other _ _ hk
  · rw [hi]; exact h.cuc i

theorem ji_electSend {j : J N D} (h : JI c0 j) (hL : LeaseNet.Inv P j.l) {i : N} {o : Raft.Log N D} :
    JI c0 (eff P c0 j (.electSend i o)) := by
  have hi : (LeaseNet.eff P j.l (.electSend i)).nd i =
      { j.l.nd i with elect := none, sent := true, pterm := (j.l.nd i).term, pvote := some i } := LeaseNet.updF_same _ _ _
  let n' : Raft.NodeSt N D := { j.r.node i with elect := none, ready := true, pterm := (j.r.node i).term, pvote := some i }
  have hri : Raft.updF j.r.node i n' i = n' := by simp [Raft.updF]
  show JI c0 ⟨⟨Raft.updF j.r.node i n', (j.r.g.voted (j.r.node i).term i i).send (.rv (j.r.node i).term i (Raft.lastId o))⟩,
      LeaseNet.eff P j.l (.electSend i), j.aes, j.recs⟩
  refine h.upd (i := i) ?_
  exact {
    rn := fun k hk => by simp [Raft.updF, hk]
    ln := fun k hk => LeaseNet.updF_other _ _ hk
    com := rfl
    ele := rfl
    won := rfl
    wcf := rfl
    clk := fun _ => Nat.le_refl _
    aes := rfl
    recs := fun _ h => h
    recn := fun _ h => Or.inl h
    lm := fun _ h => List.mem_cons_of_mem _ h
    lr := fun _ h => h
    nc := by
      dsimp only; rw [hri, hi]
      have := h.nc i
      exact ⟨this.term, this.vote, this.term, rfl, rfl, this.role, fun _ => rfl⟩
    ld := by dsimp only; rw [hri, hi]; exact fun h => ⟨h, rfl, rfl, rfl, rfl, rfl, rfl, rfl⟩
    ap := by dsimp only; rw [hri, hi]; exact h.ap i
    cuc := by dsimp only; rw [hi]; exact h.cuc i
    qf := by dsimp only; rw [hri]; exact fun _ _ _ h => Or.inl h
    ar := fun T v u hm => by
      rcases List.mem_cons.mp hm with h1 | h1
      · cases h1
      · exact Or.inl h1 }

theorem ji_voteAgain {j : J N D} (h : JI c0 j) (hL : LeaseNet.Inv P j.l) {i : N} {t : Nat} {c : N} {d : Option (Option N × Nat)} :
    JI c0 (eff P c0 j (.voteAgain i t c d)) := by
  refine h.upd (i := i) ?_
  exact {
    rn := fun k hk => rfl
    ln := fun k hk => rfl
    com := rfl
    ele := rfl
    won := rfl
    wcf := rfl
    clk := fun _ => Nat.le_refl _
    aes := rfl
    recs := fun _ h => h
    recn := fun _ h => Or.inl h
    lm := fun _ h => List.mem_cons_of_mem _ h
    lr := fun _ h => h
    nc := h.nc i
    ld := fun h => ⟨h, rfl, rfl, rfl, rfl, rfl, rfl, rfl⟩
    ap := h.ap i
    cuc := h.cuc i
    qf := fun _ _ _ h => Or.inl h
    ar := fun T v u hm => by
      rcases List.mem_cons.mp hm with h1 | h1
      · cases h1
      · exact Or.inl h1 }

/-! ### Votes -/

theorem voteFinish_cases (n : Raft.NodeSt N D) (f : Raft.VFrame N) :
    ((Raft.voteFinish n f true true).2 = false ∧ (Raft.voteFinish n f true true).1 =
      { (if n.term < f.reqTerm then Raft.stepDown n f.reqTerm true else n) with vframes := n.vframes.erase f }) ∨
    ((Raft.voteFinish n f true true).2 = true ∧
      (n.term < f.reqTerm ∨ n.vote = none) ∧
      ∃ n2, n2 = Raft.stepDown { (if n.term < f.reqTerm then Raft.stepDown n f.reqTerm true else n) with
          vframes := n.vframes.erase f } f.reqTerm true ∧
      (Raft.voteFinish n f true true).1 = { n2 with vote := some f.cand, pterm := n2.term, pvote := some f.cand }) := by
  unfold Raft.voteFinish
  dsimp only
  by_cases hc : Raft.idLe f.lastId f.claim = true ∧ (if n.term < f.reqTerm then Raft.stepDown n f.reqTerm true else n).vote = none
  · right
    rw [if_pos hc, if_pos rfl]
    refine ⟨rfl, ?_, _, rfl, rfl⟩
    by_cases hlt : n.term < f.reqTerm
    · exact Or.inl hlt
    · right; have := hc.2; rw [if_neg hlt] at this; exact this
  · left
    rw [if_neg hc]
    exact ⟨rfl, rfl⟩

theorem ji_voteReject {j : J N D} (h : JI c0 j) (hI : Raft.Inv c0 j.r) (hL : LeaseNet.Inv P j.l) {i : N} {f : Raft.VFrame N}
    (hm : more P c0 j (.voteReject i f)) : JI c0 (eff P c0 j (.voteReject i f)) := by
  have hm' : (Raft.voteFinish (j.r.node i) f true true).2 = false := hm
  have hr : raftEff c0 j (.voteReject i f) = Raft.setNode j.r i (Raft.voteFinish (j.r.node i) f true true).1 := by
    show (if (Raft.voteFinish (j.r.node i) f true true).2 = true then _ else _) = _
    rw [hm', if_neg nofun]
  have h1 : (Raft.voteFinish (j.r.node i) f true true).1 =
      { (if (j.r.node i).term < f.reqTerm then Raft.stepDown (j.r.node i) f.reqTerm true else j.r.node i) with
        vframes := (j.r.node i).vframes.erase f } := by
    rcases voteFinish_cases (j.r.node i) f with h1 | h1
    · exact h1.2
    · rw [h1.1] at hm'; cases hm'
  show JI c0 ⟨raftEff c0 j (.voteReject i f), (leaseOf j (.voteReject i f)).foldl (LeaseNet.eff P) j.l, j.aes, j.recs⟩
  rw [hr, h1]
  by_cases hlt : (j.r.node i).term < f.reqTerm
  · rw [if_pos hlt]
    have hle : leaseOf j (.voteReject i f) = [.raise i f.reqTerm] := if_pos hlt
    rw [hle]
    have hi : (LeaseNet.setNd j.l i (LeaseNet.stepDown (j.l.nd i) f.reqTerm)).nd i = LeaseNet.stepDown (j.l.nd i) f.reqTerm :=
      LeaseNet.updF_same _ _ _
    refine foll_upd h (i := i) (l' := LeaseNet.setNd j.l i (LeaseNet.stepDown (j.l.nd i) f.reqTerm)) ?_ (stepDown_nl _ _ _) ?_ ?_
      rfl rfl rfl ?_ (fun _ h => h) (fun _ h => h) rfl rfl (fun _ h => h) (fun _ h => Or.inl h) ?_ (fun _ _ _ h => Or.inl h)
    · rw [hi]
      have := (h.nc i).stepDown f.reqTerm
      exact ⟨this.term, this.vote, this.pterm, this.pvote, this.elect, this.role, this.sent⟩
    · rw [hi]; exact stepDown_ll (hL.n i) _
    · exact fun k hk => LeaseNet.updF_other _ _ hk
    · rw [hi, stepDown_cuAt]; exact h.cuc i
    · intro t m c hm
      have : Raft.Op.ackF t m c ∈ (Raft.stepDown (j.r.node i) f.reqTerm true).queue := hm
      rw [stepDown_queue] at this
      exact Or.inl this
  · rw [if_neg hlt]
    have hle : leaseOf j (.voteReject i f) = [] := if_neg hlt
    rw [hle]
    exact raft_upd h hI hL ⟨rfl, rfl, rfl, rfl, rfl, rfl, rfl, fun _ => ⟨rfl, rfl, Nat.le_refl _⟩, fun _ _ _ h => h⟩ rfl rfl
      (fun _ _ _ h => Or.inl h)

theorem grant_nc {n : Raft.NodeSt N D} {m : LeaseNet.Nd N} (h : NC n m) {f : Raft.VFrame N} (ht : n.term ≤ f.reqTerm)
    {n2 : Raft.NodeSt N D} (h2 : n2 = Raft.stepDown { (if n.term < f.reqTerm then Raft.stepDown n f.reqTerm true else n) with
          vframes := n.vframes.erase f } f.reqTerm true) :
    NC { n2 with vote := some f.cand, pterm := n2.term, pvote := some f.cand } (LeaseNet.grant m f.reqTerm f.cand) ∧
      n2.queue = n.queue ∧ n2.role = .follower := by
  have hnc := h.stepDown f.reqTerm
  have hterm : n2.term = f.reqTerm := by
    subst h2
    by_cases hlt : n.term < f.reqTerm
    · rw [if_pos hlt, Raft.stepDown_term]
      dsimp only
      rw [Raft.stepDown_term]; omega
    · rw [if_neg hlt, Raft.stepDown_term]
      dsimp only
      omega
  have hel : n2.elect = n.elect := by
    subst h2
    unfold Raft.stepDown
    repeat' split <;> first | rfl | (dsimp only; repeat' split <;> rfl)
  have hq : n2.queue = n.queue := by
    subst h2
    rw [stepDown_queue]
    dsimp only
    split
    · rw [stepDown_queue]
    · rfl
  have hro : n2.role = .follower := by subst h2; rw [Raft.stepDown_role]
  refine ⟨⟨?_, rfl, ?_, rfl, ?_, ?_, ?_⟩, hq, hro⟩
  · show (LeaseNet.stepDown m f.reqTerm).term = n2.term
    rw [hterm, hnc.term, Raft.stepDown_term]; omega
  · exact hterm.symm
  · show (LeaseNet.stepDown m f.reqTerm).elect = n2.elect
    rw [hel, hnc.elect]
    unfold Raft.stepDown; split <;> rfl
  · show roleOf (LeaseNet.stepDown m f.reqTerm).role = n2.role
    rw [hro, LeaseNet.stepDown_role]; rfl
  · intro hc
    have : n2.role = .candidate := hc
    rw [hro] at this; cases this

theorem pre_voteGrant {j : J N D} (h : JI c0 j) (hI : Raft.Inv c0 j.r) {i : N} {f : Raft.VFrame N}
    {d : Option (Option N × Nat)} (hp : Raft.pre norm c0 j.r (.voteEnd i f true true)) (hm : more P c0 j (.voteGrant i f d)) :
    (j.r.node i).term ≤ f.reqTerm ∧ LeaseNet.pre P j.l (.voteGrant i f.reqTerm f.cand d) := by
  obtain ⟨h1, h2, _⟩ := hp
  obtain ⟨_, h3, h4⟩ := (hI.n i).vf f h1
  have hle : (j.r.node i).term ≤ f.reqTerm := by omega
  refine ⟨hle, hm.2.1, h4, by rw [(h.nc i).term]; exact hle, hm.2.2, ?_⟩
  rcases voteFinish_cases (j.r.node i) f with h5 | h5
  · have := hm.1; rw [h5.1] at this; cases this
  · rw [(h.nc i).term, (h.nc i).vote]; exact h5.2.1

theorem ji_voteGrant {j : J N D} (h : JI c0 j) (hI : Raft.Inv c0 j.r) (hL : LeaseNet.Inv P j.l) {i : N} {f : Raft.VFrame N}
    {d : Option (Option N × Nat)} (hp : Raft.pre norm c0 j.r (.voteEnd i f true true))
    (hm : more P c0 j (.voteGrant i f d)) : JI c0 (eff P c0 j (.voteGrant i f d)) := by
  have hm' : (Raft.voteFinish (j.r.node i) f true true).2 = true := hm.1
  have hr : raftEff c0 j (.voteGrant i f d) = ⟨Raft.updF j.r.node i (Raft.voteFinish (j.r.node i) f true true).1,
      (j.r.g.voted f.reqTerm i f.cand).send (.vr f.reqTerm i f.cand)⟩ := by
    show (if (Raft.voteFinish (j.r.node i) f true true).2 = true then _ else _) = _
    rw [if_pos hm']
  have hle := (pre_voteGrant h hI hp hm).1
  rcases voteFinish_cases (j.r.node i) f with h1 | ⟨_, _, n2, h1, h2⟩
  · rw [h1.1] at hm'; cases hm'
  obtain ⟨hnc, hq, hro⟩ := grant_nc (h.nc i) hle h1
  show JI c0 ⟨raftEff c0 j (.voteGrant i f d), LeaseNet.eff P j.l (.voteGrant i f.reqTerm f.cand d), j.aes, j.recs⟩
  rw [hr, h2]
  have hi : (LeaseNet.eff P j.l (.voteGrant i f.reqTerm f.cand d)).nd i = LeaseNet.grant (j.l.nd i) f.reqTerm f.cand :=
    LeaseNet.updF_same _ _ _
  refine foll_upd h (i := i) ?_ ?_ ?_ ?_ rfl rfl rfl ?_ (fun _ h => List.mem_cons_of_mem _ h) (fun _ h => h) rfl rfl (fun _ h => h)
    (fun _ h => Or.inl h) ?_ ?_
  · rw [hi]; exact hnc
  · show n2.role ≠ _
    rw [hro]; exact nofun
  · rw [hi]; exact stepDown_ll (hL.n i) _
  · exact fun k hk => LeaseNet.updF_other _ _ hk
  · rw [hi]
    show (LeaseNet.stepDown (j.l.nd i) f.reqTerm).cuAt ≤ _
    rw [stepDown_cuAt]; exact h.cuc i
  · intro t m c hx
    have : Raft.Op.ackF t m c ∈ n2.queue := hx
    rw [hq] at this
    exact Or.inl this
  · intro T v u hx
    rcases List.mem_cons.mp hx with h3 | h3
    · cases h3
    · exact Or.inl h3

end Braft.LeaseRaft
