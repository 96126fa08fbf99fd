import Verif.LeaseRaftSteps
/-
The coupling invariant of Verif/LeaseRaftInv.lean: events of a leader.
-/
set_option linter.unusedVariables false
set_option linter.unusedSimpArgs false
set_option linter.unusedSectionVars false

namespace Braft.LeaseRaft
open Braft

variable {N D : Type} [DecidableEq N] [DecidableEq D] {P : LeaseNet.Params N} {c0 : Raft.Conf N}

theorem JI.leads {j : J N D} (h : JI c0 j) {i : N} (hr : (j.r.node i).role = .leader) :
    LeaseNet.leads (j.l.nd i) (j.l.nd i).term = true := leads_iff.mpr ⟨by rw [(h.nc i).role]; exact hr, rfl⟩

theorem JI.won_self {j : J N D} (h : JI c0 j) (hI : Raft.Inv c0 j.r) {i : N} (hr : (j.r.node i).role = .leader) :
    WonR j.r.g (j.r.node i).term i := by
  obtain ⟨_, r, h2, h3, h4, _⟩ := (hI.n i).lead hr
  exact ⟨r, h2, h4, h3⟩

theorem won_uniq {g : Raft.Glob N D} (h : Raft.GInv c0 g) {T : Nat} {v w : N} (h1 : WonR g T v) (h2 : WonR g T w) : v = w := by
  obtain ⟨e, he, h3, h4⟩ := h1
  obtain ⟨e', he', h5, h6⟩ := h2
  have := elec_unique h he he' (by omega)
  subst this
  rw [← h4, ← h6]

/-- A leader that may append a configuration entry. -/
theorem LC.settled {cs : List (Raft.Log N D)} {n : Raft.NodeSt N D} {m : LeaseNet.Nd N} (h : LC c0 cs n m)
    (hc : Raft.lastConfIdx n.log ≤ n.commit) : m.ready = true ∧ m.cu = none ∧ m.cc = Raft.confOf c0 n.log := by
  have hr : m.ready = true := by
    cases hr : m.ready with
    | true => rfl
    | false => have := (h.nr hr).2.2.1; omega
  refine ⟨hr, ?_, ?_⟩
  · cases hu : m.cu with
    | none => rfl
    | some c => have := (h.so hr c hu).1; omega
  · rw [(h.rd hr).2.2, take_confOf hc]

theorem pre_changeConf {j : J N D} (h : JI c0 j) {i : N} {c : Raft.Conf N} (hp : Raft.pre norm c0 j.r (.changeConf i c))
    (hm : more P c0 j (.changeConf i c)) : LeaseNet.pre P j.l (.changeConf i c) := by
  obtain ⟨h1, h2, h3⟩ := (h.lc i hp.1).settled hp.2.1
  refine ⟨h.leads hp.1, h1, h2, by rw [h3]; exact hp.2.2, ?_⟩
  rw [h3]
  exact hm

theorem ji_changeConf {j : J N D} (h : JI c0 j) (hI : Raft.Inv c0 j.r) (hL : LeaseNet.Inv P j.l) {i : N} {c : Raft.Conf N}
    (hp : Raft.pre norm c0 j.r (.changeConf i c)) : JI c0 (eff P c0 j (.changeConf i c)) := by
  have hn := hI.n i
  have hc := h.lc i hp.1
  obtain ⟨h1, h2, h3⟩ := hc.settled hp.2.1
  let es : Raft.Log N D := [⟨(j.r.node i).term, .conf c⟩]
  have hli : Raft.lastConfIdx ((j.r.node i).log ++ es) = (j.r.node i).log.length + 1 := Raft.lastConfIdx_conf rfl
  have hcl := hn.cl
  let m' : LeaseNet.Nd N := { j.l.nd i with cu := some c, cuAt := j.l.clk i }
  have hi : (Raft.sysAppend j.r i es).node i = Raft.appendOwn (j.r.node i) es := by simp [Raft.sysAppend, Raft.updF]
  have hm' : (LeaseNet.setNd j.l i m').nd i = m' := LeaseNet.updF_same _ _ _
  show JI c0 ⟨Raft.sysAppend j.r i es, LeaseNet.setNd j.l i m', j.aes, j.recs⟩
  refine h.upd2 (i := i) ?_
  constructor <;> dsimp only
  case rn => exact fun k hk => by simp [Raft.sysAppend, Raft.updF, hk]
  case ln => exact fun k hk => LeaseNet.updF_other _ _ hk
  case com => exact fun _ h => h
  case comn => exact fun _ h => Or.inl h
  case clk => rfl
  case aesn => exact fun _ h => Or.inl h
  case recv => rfl
  case aes => exact fun _ h => h
  case lm => exact fun _ h => h
  case nc =>
    rw [hi, hm']
    have := h.nc i
    exact ⟨this.term, this.vote, this.pterm, this.pvote, this.elect, this.role, this.sent⟩
  case lc =>
    rw [hi, hm']
    intro _
    have htake : ((j.r.node i).log ++ es).take (j.r.node i).commit = (j.r.node i).log.take (j.r.node i).commit := take_app hcl
    constructor
    · intro hr
      have : (j.l.nd i).ready = false := hr
      rw [h1] at this; cases this
    · intro _
      show ((j.r.node i).log ++ es).take (j.r.node i).commit ∈ _ ∧
            Raft.lastTerm (((j.r.node i).log ++ es).take (j.r.node i).commit) = _ ∧
            _ = Raft.confOf c0 (((j.r.node i).log ++ es).take (j.r.node i).commit)
      rw [htake]; exact hc.rd h1
    · intro _ hu; cases hu
    · intro _ c' hu
      injection hu with hu
      subst hu
      show _ < Raft.lastConfIdx ((j.r.node i).log ++ es) ∧ Raft.confOf c0 ((j.r.node i).log ++ es) = c ∧
        ∀ k, (j.r.node i).commit ≤ k → k < Raft.lastConfIdx ((j.r.node i).log ++ es) →
          Raft.confOf c0 (((j.r.node i).log ++ es).take k) = (j.l.nd i).cc
      rw [hli]
      refine ⟨by show (j.r.node i).commit < _; omega, ?_, fun k hk hk' => ?_⟩
      · rw [Raft.confOf_concat]; rfl
      · rw [take_app (by omega), h3]
        exact take_confOf (Nat.le_trans hp.2.1 hk)
    · exact hc.cm
  case aeb =>
    rw [hi, hm']
    intro a ha hx hr ht
    have hb := (h.aeb a ha (by rw [hx]; exact hr) (by rw [hx]; exact ht)).1
    rw [hx] at hb
    refine ⟨?_, fun _ _ => ?_⟩
    · show _ ≤ ((j.r.node i).log ++ es).length
      rw [List.length_append]; omega
    · show _ < Raft.lastConfIdx ((j.r.node i).log ++ es)
      rw [hli]; omega
  case ap =>
    rw [hi, hm']
    show _ → _ → Raft.lastTerm (((j.r.node i).log ++ es).take (j.r.node i).applied) = _
    rw [take_app hn.ap]; exact h.ap i
  case cuc => rw [hm']; exact Nat.le_refl _
  case won => exact h.won
  case wc => exact h.wc
  case ele => exact fun _ h => h
  case qf =>
    rw [hi]
    intro t m c' hm
    unfold Raft.appendOwn at hm
    dsimp only at hm
    simp only [List.mem_append, List.mem_map, List.mem_singleton] at hm
    rcases hm with (hm | ⟨e, _, hm⟩) | hm
    · exact hm
    · cases hm
    · cases hm
  case ar => exact fun _ _ _ h => h

theorem ji_sendAE {j : J N D} (h : JI c0 j) (hI : Raft.Inv c0 j.r) (hL : LeaseNet.Inv P j.l) {i : N} {prev cnt c : Nat}
    (hp : Raft.pre norm c0 j.r (.sendAE i prev cnt c)) : JI c0 (eff P c0 j (.sendAE i prev cnt c)) := by
  obtain ⟨hr, hprev, hcm⟩ := hp
  refine h.upd2 (i := i) ?_
  constructor <;> dsimp only [eff, raftEff, raftOf, leaseOf, Raft.eff, LeaseNet.eff, List.foldl_cons, List.foldl_nil]
  case rn => exact fun k hk => rfl
  case ln => exact fun k hk => rfl
  case com => exact fun _ h => h
  case comn => exact fun _ h => Or.inl h
  case aesn =>
    intro a ha
    rcases List.mem_cons.mp ha with rfl | h1
    · refine Or.inr ⟨rfl, ?_⟩
      rw [(h.nc i).term]; exact List.mem_cons_self
    · exact Or.inl h1
  case aes => exact fun _ h => List.mem_cons_of_mem _ h
  case lm => exact fun _ h => List.mem_cons_of_mem _ h
  case nc => exact h.nc i
  case lc => exact h.lc i
  case aeb =>
    intro a ha hx hr' ht
    rcases List.mem_cons.mp ha with rfl | h1
    · refine ⟨?_, fun _ hlt => ?_⟩
      · dsimp only
        rw [List.length_take, List.length_drop]; omega
      · have := h.cuc i
        dsimp only at hlt
        omega
    · have := h.aeb a h1
      rw [hx] at this
      exact this hr' ht
  case ap => exact h.ap i
  case cuc => exact h.cuc i
  case won => exact h.won
  case wc => exact h.wc
  case ele => exact fun _ h => h
  case qf => exact fun _ _ _ h => h
  case ar =>
    intro T v u hm
    rcases List.mem_cons.mp hm with h1 | h1
    · cases h1
    · exact h1

/-! ### Commit -/

/-- Who acknowledged entries of this leadership has handled an AppendEntries that covered them. -/
theorem JI.acked {j : J N D} (h : JI c0 j) (hI : Raft.Inv c0 j.r) (hL : LeaseNet.Inv P j.l) {i : N}
    (hr : (j.r.node i).role = .leader) {v : N} {u : Nat} (hm : Raft.Msg.ar (j.r.node i).term v u ∈ j.r.g.msgs) :
    v = i ∨ ∃ r ∈ j.l.recv, r.t = (j.l.nd i).term ∧ r.p = v ∧ r.x = i ∧ (j.l.nd i).t0 ≤ r.at_ ∧
      ((j.l.nd i).cu ≠ none → Raft.lastConfIdx (j.r.node i).log ≤ u → (j.l.nd i).cuAt ≤ r.at_) := by
  have hw := h.won_self hI hr
  rcases h.ar _ v u hm with h1 | ⟨a, h1, h2, h3⟩
  · exact Or.inl (won_uniq hI.g h1 hw)
  · right
    obtain ⟨h4, r, h5, h6, h7, h8, h9⟩ := h.rc _ h1
    dsimp only at h4 h6 h7 h8 h9
    have hmsg := h.aem a h4
    have hx : a.x = i := by
      have := (hL.g.ae _ _ _ hmsg).1
      rw [h.won, h2] at this
      exact won_uniq hI.g this hw
    rw [hx, h2, ← (h.nc i).term] at hmsg
    refine ⟨r, h5, by rw [h6, h2, (h.nc i).term], h7, by rw [h8, hx], ?_, fun hcu hu => ?_⟩
    · rw [h9]; exact (hL.n i).aet (h.leads hr) _ hmsg
    · rw [h9]
      have := (h.aeb a h4 (by rw [hx]; exact hr) (by rw [hx, h2])).2
      rw [hx] at this
      refine Classical.byContradiction fun hlt => ?_
      have := this hcu (by omega)
      omega

theorem commit_fact {j : J N D} (h : JI c0 j) (hI : Raft.Inv c0 j.r) {i : N} {k : Nat}
    {q : List N} (hp : Raft.pre norm c0 j.r (.commit i k q)) (hd : (j.l.nd i).ready = false) :
    Raft.lastConfIdx (j.r.node i).log ≤ k := ((h.lc i hp.1).nr hd).2.2.2 k hp.2.2.2.1

theorem pre_commit {j : J N D} (h : JI c0 j) (hI : Raft.Inv c0 j.r) (hL : LeaseNet.Inv P j.l) {i : N} {k : Nat}
    {q : List N} (hp : Raft.pre norm c0 j.r (.commit i k q)) : ∀ a ∈ commitActs j i k, LeaseNet.pre P j.l a := by
  have hp' := hp
  obtain ⟨hr, hck, hkl, ht, hq, har⟩ := hp
  have hc := h.lc i hr
  intro a ha
  unfold commitActs at ha
  split at ha
  · next hd =>
    rw [List.mem_singleton] at ha
    subst ha
    refine ⟨?_, hd, ?_⟩
    · have hl := h.leads hr
      cases hro : (j.l.nd i).role with
      | leader => rfl
      | transferring => have := (hL.n i).tr hro; rw [this] at hd; cases hd
      | follower => rw [LeaseNet.leads_role (Or.inl hro)] at hl; cases hl
      | candidate => rw [LeaseNet.leads_role (Or.inr hro)] at hl; cases hl
    · have hcc : (j.l.nd i).cc = Raft.confOf c0 ((j.r.node i).log.take k) := by
        rw [take_confOf (commit_fact h hI hp' hd)]; exact (hc.nr hd).2.1
      rw [hcc]
      refine LeaseNet.quorum_mono hq (fun v hv => ?_)
      rw [decide_eq_true_eq] at hv
      obtain ⟨m, hm, u, rfl, hu⟩ := har v hv
      rw [LeaseNet.contact_iff]
      rcases h.acked hI hL hr hm with h1 | ⟨r, h1, h2, h3, h4, h5, _⟩
      · exact Or.inl h1
      · exact Or.inr ⟨r, h1, h2, h3, h4, h5⟩
  · next hd =>
    split at ha
    · next hcu =>
      rw [List.mem_singleton] at ha
      subst ha
      have hrd : (j.l.nd i).ready = true := by
        cases hx : (j.l.nd i).ready with
        | true => rfl
        | false => exact absurd hx hd
      refine ⟨h.leads hr, hcu.1, ?_⟩
      have hcc : (j.l.nd i).cur = Raft.confOf c0 ((j.r.node i).log.take k) := by
        cases hx : (j.l.nd i).cu with
        | none => exact absurd hx hcu.1
        | some c => rw [LeaseNet.cur_some hx, take_confOf hcu.2, (hc.so hrd c hx).2.1]
      rw [hcc]
      refine LeaseNet.quorum_mono hq (fun v hv => ?_)
      rw [decide_eq_true_eq] at hv
      obtain ⟨m, hm, u, rfl, hu⟩ := har v hv
      rw [LeaseNet.contact_iff]
      rcases h.acked hI hL hr hm with h1 | ⟨r, h1, h2, h3, h4, _, h5⟩
      · exact Or.inl h1
      · exact Or.inr ⟨r, h1, h2, h3, h4, h5 hcu.1 (by omega)⟩
    · cases ha

/-- The timed part of a node after a commit. -/
def committed (j : J N D) (i : N) (k : Nat) : LeaseNet.Nd N :=
  if (j.l.nd i).ready = false then { j.l.nd i with ready := true, pend := (j.l.nd i).ll.epoch :: (j.l.nd i).pend }
  else if (j.l.nd i).cu ≠ none ∧ Raft.lastConfIdx (j.r.node i).log ≤ k then { j.l.nd i with cc := (j.l.nd i).cur, cu := none }
  else j.l.nd i

theorem commit_foldl (j : J N D) (i : N) (k : Nat) :
    (commitActs j i k).foldl (LeaseNet.eff P) j.l = LeaseNet.setNd j.l i (committed j i k) := by
  unfold commitActs committed
  by_cases h1 : (j.l.nd i).ready = false
  · rw [if_pos h1, if_pos h1]; rfl
  · rw [if_neg h1, if_neg h1]
    by_cases h2 : (j.l.nd i).cu ≠ none ∧ Raft.lastConfIdx (j.r.node i).log ≤ k
    · rw [if_pos h2, if_pos h2]; rfl
    · rw [if_neg h2, if_neg h2]
      show j.l = _
      unfold LeaseNet.setNd
      rw [← LeaseNet.updF_self]

theorem ji_commit {j : J N D} (h : JI c0 j) (hI : Raft.Inv c0 j.r) (hL : LeaseNet.Inv P j.l) {i : N} {k : Nat}
    {q : List N} (hp : Raft.pre norm c0 j.r (.commit i k q)) : JI c0 (eff P c0 j (.commit i k q)) := by
  have hp' := hp
  obtain ⟨hr, hck, hkl, ht, hq, har⟩ := hp
  have hn := hI.n i
  have hc := h.lc i hr
  have hw := h.won_self hI hr
  have hlt : Raft.lastTerm ((j.r.node i).log.take k) = (j.r.node i).term := by rw [← Raft.termAt_take hkl]; exact ht
  show JI c0 ⟨⟨Raft.updF j.r.node i { j.r.node i with commit := k },
    { j.r.g with commits := (j.r.node i).log.take k :: j.r.g.commits }⟩, (commitActs j i k).foldl (LeaseNet.eff P) j.l, j.aes, j.recs⟩
  rw [commit_foldl]
  have hi : Raft.updF j.r.node i { j.r.node i with commit := k } i = { j.r.node i with commit := k } := by simp [Raft.updF]
  have hm' : (LeaseNet.setNd j.l i (committed j i k)).nd i = committed j i k := LeaseNet.updF_same _ _ _
  refine h.upd2 (i := i) ?_
  constructor <;> dsimp only
  case rn => exact fun k hk => by simp [Raft.updF, hk]
  case ln => exact fun k hk => LeaseNet.updF_other _ _ hk
  case com => exact fun _ h => List.mem_cons_of_mem _ h
  case comn =>
    intro K hK
    rcases List.mem_cons.mp hK with rfl | h1
    · right
      intro v hv hrv hne
      rw [hlt] at hne
      have := h.won_self hI hrv
      rw [← hne] at this
      exact hv (won_uniq hI.g this hw)
    · exact Or.inl h1
  case clk => rfl
  case aesn => exact fun _ h => Or.inl h
  case recv => rfl
  case aes => exact fun _ h => h
  case lm => exact fun _ h => h
  case nc =>
    rw [hi, hm']
    have := h.nc i
    unfold committed
    split
    · exact ⟨this.term, this.vote, this.pterm, this.pvote, this.elect, this.role, this.sent⟩
    · split <;> exact ⟨this.term, this.vote, this.pterm, this.pvote, this.elect, this.role, this.sent⟩
  case lc =>
    rw [hi, hm']
    intro _
    have hcm : ∀ K ∈ (j.r.node i).log.take k :: j.r.g.commits, Raft.lastTerm K = (j.r.node i).term → K.length ≤ k := by
      intro K hK hKt
      rcases List.mem_cons.mp hK with rfl | h1
      · rw [List.length_take]; exact Nat.min_le_left _ _
      · have := hc.cm K h1 hKt; omega
    unfold committed
    by_cases h1 : (j.l.nd i).ready = false
    · rw [if_pos h1]
      obtain ⟨h2, h3, h4, h5⟩ := hc.nr h1
      have hk := commit_fact h hI hp' h1
      exact {
        nr := fun hd => nomatch hd
        rd := fun _ => ⟨List.mem_cons_self, hlt, by rw [take_confOf hk]; exact h3⟩
        no := fun _ _ => hk
        so := fun _ c hu => by
          have : (j.l.nd i).cu = some c := hu
          rw [h2] at this; cases this
        cm := hcm }
    · rw [if_neg h1]
      have hrd : (j.l.nd i).ready = true := by
        cases hx : (j.l.nd i).ready with
        | true => rfl
        | false => exact absurd hx h1
      by_cases h2 : (j.l.nd i).cu ≠ none ∧ Raft.lastConfIdx (j.r.node i).log ≤ k
      · rw [if_pos h2]
        exact {
          nr := fun hd => absurd hd h1
          rd := fun _ => ⟨List.mem_cons_self, hlt, by
            cases hx : (j.l.nd i).cu with
            | none => exact absurd hx h2.1
            | some c =>
              show (j.l.nd i).cur = _
              rw [LeaseNet.cur_some hx]
              show _ = Raft.confOf c0 ((j.r.node i).log.take k)
              rw [take_confOf h2.2, (hc.so hrd c hx).2.1]⟩
          no := fun _ _ => h2.2
          so := fun _ c hu => nomatch hu
          cm := hcm }
      · rw [if_neg h2]
        refine {
          nr := fun hd => absurd hd h1
          rd := fun _ => ⟨List.mem_cons_self, hlt, ?_⟩
          no := fun hd hu => Nat.le_trans (hc.no hrd hu) (by show (j.r.node i).commit ≤ k; omega)
          so := fun _ c hu => ?_
          cm := hcm }
        · show (j.l.nd i).cc = Raft.confOf c0 ((j.r.node i).log.take k)
          cases hx : (j.l.nd i).cu with
          | none =>
            have := hc.no hrd hx
            rw [(hc.rd hrd).2.2, take_confOf this, take_confOf (by omega)]
          | some c =>
            obtain ⟨h3, h4, h5⟩ := hc.so hrd c hx
            refine (h5 k (by omega) ?_).symm
            refine Classical.byContradiction fun hge => h2 ⟨by rw [hx]; exact nofun, by omega⟩
        · obtain ⟨h3, h4, h5⟩ := hc.so hrd c hu
          have hk : k < Raft.lastConfIdx (j.r.node i).log := by
            refine Classical.byContradiction fun hge => h2 ⟨by rw [hu]; exact nofun, by omega⟩
          exact ⟨hk, h4, fun k' hk' => h5 k' (by
            have : k ≤ k' := hk'
            omega)⟩
  case aeb =>
    rw [hi, hm']
    intro a ha hx hr' ht'
    have hb := h.aeb a ha (by rw [hx]; exact hr) (by rw [hx]; exact ht')
    rw [hx] at hb
    refine ⟨hb.1, ?_⟩
    unfold committed
    split
    · exact hb.2
    · split
      · exact fun h => absurd rfl h
      · exact hb.2
  case ap =>
    rw [hi, hm']
    unfold committed
    split
    · exact h.ap i
    · split <;> exact h.ap i
  case cuc =>
    rw [hm']
    show _ ≤ j.l.clk i
    unfold committed
    split
    · exact h.cuc i
    · split <;> exact h.cuc i
  case won => exact h.won
  case wc => exact h.wc
  case ele => exact fun _ h => h
  case qf => rw [hi]; exact fun _ _ _ h => h
  case ar => exact fun _ _ _ h => h

end Braft.LeaseRaft
