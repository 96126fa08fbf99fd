import Verif.Cluster.PipeNodeSteps
/-
What a step of a server of the cluster, that is not a configuration change and not a restart, does to its role, term and
log.
-/
set_option linter.unusedVariables false
set_option linter.unusedSimpArgs false
set_option linter.unusedSectionVars false

namespace Braft.CN
open Braft.Raft Braft.Cl
variable {N D : Type} [DecidableEq N] [DecidableEq D] {c0 : Conf N} {p : CParams}

/-- Outcomes: a leader goes on and may append data; a candidate becomes leader and appends its configuration; a
candidate goes on; an election starts; the node is a follower. -/
inductive Fr (c0 : Conf N) (i : N) (c c' : Srv N D) : Prop where
  | lead (h : c.state.leads = true) (h' : c'.state.leads = true) (st : c'.state = c.state ∨ c'.state = .leader) (term : c'.term = c.term) (ds : List (Entry N D))
      (log : c'.log = c.log ++ ds) (data : ∀ e ∈ ds, e.conf? = none) (bb : c.bb.lastCommitted ≤ c'.bb.lastCommitted)
  | led (h : c.state = .candidate) (h' : c'.state = .leader) (term : c'.term = c.term)
      (log : c'.log = c.log ++ [⟨c.term, .conf (confOf c0 c.log)⟩])
  | cand (h : c.state = .candidate) (h' : c'.state = .candidate) (term : c'.term = c.term) (log : c'.log = c.log)
  | elect (h : c.state.leads = false) (h' : c'.state = .candidate) (term : c'.term = c.term + 1) (log : c'.log = c.log)
      (mem : i ∈ (confOf c0 c.log).peers ∨ i ∈ (confOf c0 c.log).old)
  | fol (h' : c'.state = .follower) (term : c.term ≤ c'.term)

theorem Fr.keep {i : N} {c c' : Srv N D} (h : c'.state = c.state ∨ c.state.leads = true ∧ c'.state = .leader) (ht : c'.term = c.term) (hl : c'.log = c.log)
    (hb : c.bb.lastCommitted ≤ c'.bb.lastCommitted) : Fr c0 i c c' := by
  rcases h with h | ⟨h, h'⟩
  · cases hs : c.state with
    | leader => exact .lead (by rw [hs]; rfl) (by rw [h, hs]; rfl) (Or.inl h) ht [] (by rw [hl, List.append_nil]) (fun e he => nomatch he) hb
    | transferring => exact .lead (by rw [hs]; rfl) (by rw [h, hs]; rfl) (Or.inl h) ht [] (by rw [hl, List.append_nil]) (fun e he => nomatch he) hb
    | candidate => exact .cand hs (h.trans hs) ht hl
    | follower => exact .fol (h.trans hs) (by rw [ht]; exact Nat.le_refl _)
  · exact .lead h (by rw [h']; rfl) (Or.inr h') ht [] (by rw [hl, List.append_nil]) (fun e he => nomatch he) hb

theorem stepDown_fr (i : N) (c : Srv N D) (t : Nat) (ok : Bool) : Fr c0 i c (sStepDown c t ok) := by
  refine .fol rfl ?_
  show c.term ≤ if decide (c.term < t) = true then t else c.term
  split
  · rename_i h; exact Nat.le_of_lt (of_decide_eq_true h)
  · exact Nat.le_refl _

theorem stepDown_le (c : Srv N D) (t : Nat) (ok : Bool) : c.term ≤ (sStepDown c t ok).term := by
  show c.term ≤ if decide (c.term < t) = true then t else c.term
  split
  · rename_i h; exact Nat.le_of_lt (of_decide_eq_true h)
  · exact Nat.le_refl _

theorem checkStepDown_fol (i : N) (c : Srv N D) (t : Nat) (srv : N) (ok : Bool) :
    (sCheckStepDown i c t srv ok).1.state = .follower ∧ c.term ≤ (sCheckStepDown i c t srv ok).1.term := by
  unfold sCheckStepDown
  dsimp only
  by_cases h : c.term < t ∨ c.state ≠ .follower ∨ c.leaderId = none
  · rw [if_pos h]
    split
    · exact ⟨rfl, stepDown_le c t ok⟩
    · exact ⟨rfl, stepDown_le c t ok⟩
  · rw [if_neg h]
    have hs : c.state = .follower := Decidable.not_not.mp fun hx => h (Or.inr (Or.inl hx))
    split
    · exact ⟨hs, Nat.le_refl _⟩
    · exact ⟨hs, Nat.le_refl _⟩

theorem append_fr (i : N) (c : Srv N D) (t : Nat) (srv : N) (prev pt : Nat) (es : List (Entry N D)) (cm : Nat) (ok gone : Bool) :
    Fr c0 i c (sAppend i c t srv prev pt es cm ok gone).1 := by
  unfold sAppend
  split
  · exact .keep (Or.inl rfl) rfl rfl (Nat.le_refl _)
  · obtain ⟨h1, h2⟩ := checkStepDown_fol i c t srv ok
    dsimp only
    generalize (sCheckStepDown i c t srv ok).1 = c1 at h1 h2 ⊢
    split
    · exact .fol rfl (Nat.le_trans h2 (stepDown_le _ _ _))
    · repeat' split
      all_goals exact .fol h1 h2

theorem install_fr (i : N) (c : Srv N D) (t : Nat) (srv : N) (K : Log N D) (ok : Bool) :
    Fr c0 i c (sInstall i c t srv K ok).1 := by
  unfold sInstall
  split
  · exact .keep (Or.inl rfl) rfl rfl (Nat.le_refl _)
  · obtain ⟨h1, h2⟩ := checkStepDown_fol i c t srv ok
    dsimp only
    generalize (sCheckStepDown i c t srv ok).1 = c1 at h1 h2 ⊢
    split
    · exact .fol rfl (Nat.le_trans h2 (stepDown_le _ _ _))
    · repeat' split
      all_goals exact .fol h1 h2

theorem electA_fr (i : N) (c : Srv N D) (st : Bool) (hl : c.state.leads = false) : Fr c0 i c (sElectA c0 i c st) := by
  unfold sElectA
  split
  · exact .keep (Or.inl rfl) rfl rfl (Nat.le_refl _)
  · rename_i h
    refine .elect hl rfl rfl rfl ?_
    by_cases h1 : i ∈ (confOf c0 c.log).peers
    · exact Or.inl h1
    · exact Or.inr (Decidable.byContradiction fun h2 => h ⟨h1, h2⟩)

theorem timeoutNow_fr (i : N) (c : Srv N D) (t : Nat) (st ok : Bool) : Fr c0 i c (sTimeoutNow c0 i c t st ok) := by
  unfold sTimeoutNow
  split
  · split
    · exact stepDown_fr ..
    · exact .keep (Or.inl rfl) rfl rfl (Nat.le_refl _)
  · split
    · exact .keep (Or.inl rfl) rfl rfl (Nat.le_refl _)
    · rename_i h
      exact electA_fr i c st (by rw [Decidable.not_not.mp h]; rfl)

theorem voteReqB_fr (i : N) (c : Srv N D) (f : VFrame N) (free ok g : Bool) : Fr c0 i c (sVoteReqB i c f free ok g).1 := by
  unfold sVoteReqB
  dsimp only
  split
  · exact .keep (Or.inl rfl) rfl rfl (Nat.le_refl _)
  · split
    · exact .keep (Or.inl rfl) rfl rfl (Nat.le_refl _)
    · unfold sVoteCast
      dsimp only
      by_cases h : c.term < f.reqTerm
      · rw [if_pos h]
        split
        · split
          · exact .fol rfl (Nat.le_trans (stepDown_le { c with vcalls := c.vcalls.erase f } f.reqTerm ok) (stepDown_le (sStepDown { c with vcalls := c.vcalls.erase f } f.reqTerm ok) f.reqTerm ok))
          · exact .fol rfl (Nat.le_trans (stepDown_le { c with vcalls := c.vcalls.erase f } f.reqTerm ok) (stepDown_le (sStepDown { c with vcalls := c.vcalls.erase f } f.reqTerm ok) f.reqTerm ok))
        · exact .fol rfl (stepDown_le { c with vcalls := c.vcalls.erase f } f.reqTerm ok)
      · rw [if_neg h]
        split
        · split
          · exact .fol rfl (stepDown_le { c with vcalls := c.vcalls.erase f } f.reqTerm ok)
          · exact .fol rfl (stepDown_le { c with vcalls := c.vcalls.erase f } f.reqTerm ok)
        · exact .keep (Or.inl rfl) rfl rfl (Nat.le_refl _)

theorem becomeLeader_fr (hck : p.checkAborts = true) (i : N) {c c1 : Srv N D} (h1 : c1.log = c.log) (ht : c1.term = c.term) (hs : c1.state = c.state)
    (ha : (decide (c1.state ≠ .candidate) && p.checkAborts) = false) :
    Fr c0 i c (sBecomeLeader p c0 i c1).1 := by
  unfold sBecomeLeader
  rw [hck, Bool.and_true, decide_eq_false_iff_not] at ha
  rw [if_neg (fun h => ha h.1)]
  refine .led (hs ▸ Decidable.not_not.mp ha) rfl ht ?_
  show c1.log ++ [⟨c1.term, .conf (confOf c0 c1.log)⟩] = _
  rw [h1, ht]

theorem grantSelf_fr (hck : p.checkAborts = true) (i : N) {c c1 : Srv N D} (free : Bool) (h1 : c1.log = c.log) (h3 : c1.bb = c.bb)
    (ht : c1.term = c.term) (hs : c1.state = c.state)
    (ha : (free && (c1.ctx.ballot.grant i).granted && decide (c1.state ≠ .candidate) && p.checkAborts) = false) :
    Fr c0 i c (sGrantSelf p c0 i c1 free).1 := by
  unfold sGrantSelf
  cases free with
  | false =>
    exact .keep (Or.inl hs) ht h1 (by show c.bb.lastCommitted ≤ c1.bb.lastCommitted; rw [h3]; exact Nat.le_refl _)
  | true =>
    simp only [if_true]
    by_cases hg : (c1.ctx.ballot.grant i).granted = true
    · rw [if_pos hg]
      rw [hg, Bool.true_and, Bool.true_and] at ha
      exact becomeLeader_fr hck i h1 ht hs ha
    · rw [if_neg hg]
      exact .keep (Or.inl hs) ht h1 (by show c.bb.lastCommitted ≤ c1.bb.lastCommitted; rw [h3]; exact Nat.le_refl _)

theorem electB_fr (hck : p.checkAborts = true) (i : N) (c : Srv N D) (f : EFrame) (ok free : Bool)
    (ha : aborts p i c (.electB i f ok free) = false) : Fr c0 i c (sElectB p c0 i c f ok free).1 := by
  unfold sElectB
  unfold aborts at ha
  dsimp only at ha
  by_cases hf : f.term ≠ c.term
  · rw [if_pos hf]; exact .keep (Or.inl rfl) rfl rfl (Nat.le_refl _)
  · rw [if_neg hf]
    have hft : f.term = c.term := Decidable.not_not.mp hf
    dsimp only
    cases ok with
    | false =>
      simp only [Bool.false_eq_true, if_false]
      exact .keep (Or.inl rfl) rfl rfl (Nat.le_refl _)
    | true =>
      simp only [if_true]
      rw [decide_eq_true hft, Bool.true_and, Bool.true_and] at ha
      exact grantSelf_fr hck i free (c1 := { (sElectAsk c0 i c f).1 with pterm := (sElectAsk c0 i c f).1.term, pvote := some i }) rfl rfl rfl rfl ha

theorem timer_fr (hck : p.checkAborts = true) (i : N) (c : Srv N D) (v : Nat) (free : Bool)
    (ha : aborts p i c (.timer i v free) = false) : Fr c0 i c (sTimer p c0 i c v free).1 := by
  unfold sTimer
  unfold aborts at ha
  dsimp only at ha ⊢
  by_cases hv : c.ctx.version ≠ v
  · rw [if_pos hv]; exact .keep (Or.inl rfl) rfl rfl (Nat.le_refl _)
  · rw [if_neg hv]
    have hft : c.ctx.version = v := Decidable.not_not.mp hv
    rw [decide_eq_true hft, Bool.true_and] at ha
    exact grantSelf_fr hck i free (c1 := { c with timers := c.timers.erase v }) rfl rfl rfl rfl ha

theorem voteRes_fr (hck : p.checkAborts = true) (i : N) (c : Srv N D) (r : Rpc N) (g rj di : Bool) (rt pt : Nat) (ok : Bool) :
    Fr c0 i c (sVoteRes p c0 i c r g rj di rt pt ok).1 := by
  have hk : ∀ c' : Srv N D, c'.state = c.state → c'.term = c.term → c'.log = c.log → c'.bb = c.bb → Fr c0 i c c' :=
    fun c' h1 h2 h3 h4 => .keep (Or.inl h1) h2 h3 (by rw [h4]; exact Nat.le_refl _)
  unfold sVoteRes
  by_cases h1 : r.version ≠ c.ctx.version
  · rw [if_pos h1]; exact hk _ rfl rfl rfl rfl
  rw [if_neg h1]
  by_cases h2 : c.state ≠ .candidate
  · rw [if_pos h2]; exact hk _ rfl rfl rfl rfl
  rw [if_neg h2]
  by_cases h3 : r.term ≠ c.term
  · rw [if_pos h3]; exact hk _ rfl rfl rfl rfl
  rw [if_neg h3]
  by_cases h4 : c.term < rt
  · rw [if_pos h4]
    exact .fol rfl (stepDown_le { c with rpcs := c.rpcs.erase r } rt ok)
  rw [if_neg h4]
  by_cases h5 : ¬ g = true ∧ ¬ rj = true
  · rw [if_pos h5]; exact hk _ rfl rfl rfl rfl
  rw [if_neg h5]
  have hst : c.state = .candidate := Decidable.not_not.mp h2
  dsimp only
  generalize (if di = true then _ else c.ctx : VoteCtx N) = x1
  generalize (if g = true ∧ some r.peer = c.lastLeader then _ else _ : Ballot N) = b2
  generalize (if g = true then x1.reserved else _ : List N) = rs
  by_cases h6 : g = true ∧ b2.granted = true
  · rw [if_pos h6]
    refine becomeLeader_fr hck i (c := c) (c1 := { c with rpcs := c.rpcs.erase r, ctx := { x1 with ballot := b2, reserved := rs } }) rfl rfl rfl ?_
    dsimp only
    rw [hst]
    rfl
  rw [if_neg h6]
  by_cases h7 : x1.disrupted = none
  · rw [if_pos h7]; exact hk _ rfl rfl rfl rfl
  · rw [if_neg h7]; exact hk _ rfl rfl rfl rfl

theorem setCommitted_le (b : BallotBox N Unit) (k : Nat) : b.lastCommitted ≤ (b.setLastCommittedIndex k).1.lastCommitted := by
  unfold BallotBox.setLastCommittedIndex
  repeat' split
  all_goals first | exact Nat.le_refl _ | (dsimp only; omega)

theorem commitAt_le (b : BallotBox N Unit) (first last : Nat) (peer : N) (h : b.pending ≠ 0 → b.lastCommitted < b.pending) :
    b.lastCommitted ≤ (b.commitAt first last peer).1.lastCommitted := by
  unfold BallotBox.commitAt
  split
  · exact Nat.le_refl _
  · rename_i hp
    split
    · exact Nat.le_refl _
    · split
      · exact Nat.le_refl _
      · have hlc := BallotBox.grantRange_lc (max b.pending first) last peer b.pending b.queue {} 0
        have := h hp
        dsimp only at hlc ⊢
        generalize BallotBox.grantRange (max b.pending first) last peer b.pending b.queue {} 0 = r at *
        obtain ⟨q, lc⟩ := r
        dsimp only at hlc ⊢
        split
        · exact Nat.le_refl _
        · rename_i hz
          rcases hlc with ⟨h1, _⟩ | ⟨k, hk, h1, h2, h3, _⟩
          · exact absurd h1 hz
          · dsimp only; omega

theorem fold_lc (cf : Conf N) (es : List (Entry N D)) : ∀ (b : BallotBox N Unit),
    (es.foldl (fun b _ => b.appendPendingTask cf.peers (oldOf cf) none) b).lastCommitted = b.lastCommitted := by
  induction es with
  | nil => intro b; rfl
  | cons e es ih => intro b; rw [List.foldl_cons, ih]; rfl

/-- What is known of a server. -/
structure Pre (c : Srv N D) : Prop where
  dl : c.dl ≠ none → c.state = .follower
  lc : c.bb.pending ≠ 0 → c.bb.lastCommitted < c.bb.pending

theorem pre_reach (hp : COk p) {s : CSys N D} (h : CReachable p c0 s) (i : N) : Pre (s.node i) := by
  obtain ⟨a, ha, hr⟩ := sim_reach hp h
  have hn := (inv_reachable ha).n i
  have r := hr.node i
  refine ⟨fun hd => ?_, fun hb => ?_⟩
  · have h1 := hn.dlf (by rw [r.dl]; exact hd)
    have h2 := r.role
    rw [h1] at h2
    cases hs : (s.node i).state <;> rw [hs] at h2 <;> first | rfl | (simp [roleOf] at h2)
  · cases hl : (s.node i).state.leads with
    | false => exact absurd (r.fol hl).1 hb
    | true => exact (r.lead hl).lc

theorem frame (hck : p.checkAborts = true) {s : CSys N D} {a : CAct N D} (hd : Pre (s.node a.at)) (hpre : cpre p c0 s a = true)
    (hr : restarts p a.at (s.node a.at) a = false) (hcc : ∀ j cf, a ≠ .changeConf j cf) (htr : ∀ j, a ≠ .transfer j) :
    Fr c0 a.at (s.node a.at) (ceff p c0 (s.node a.at) a).1 := by
  cases a with
  | elect i =>
    have hpre : (!(s.node i).state.leads && electOk p (s.node i)) = true := hpre
    rw [Bool.and_eq_true, Bool.not_eq_true'] at hpre
    exact electA_fr i (s.node i) false hpre.1
  | timeoutNow i t st ok => exact timeoutNow_fr i (s.node i) t st ok
  | electB i f ok free => exact electB_fr hck i (s.node i) f ok free hr
  | electDie i f => cases hr
  | timer i v free => exact timer_fr hck i (s.node i) v free hr
  | voteRes i r g rj d rt pt ok => exact voteRes_fr hck i (s.node i) r g rj d rt pt ok
  | voteReq i t cand claim dis =>
    show Fr c0 i (s.node i) (sVoteReqA i (s.node i) t cand claim).1
    unfold sVoteReqA
    split <;> exact .keep (Or.inl rfl) rfl rfl (Nat.le_refl _)
  | voteReqB i f free ok g => exact voteReqB_fr i (s.node i) f free ok g
  | stepDown i t ok => exact stepDown_fr i (s.node i) t ok
  | transfer i => exact absurd rfl (htr i)
  | transferTimeout i =>
    have hpre : decide ((s.node i).state = .transferring) = true := hpre
    exact .keep (Or.inr ⟨by show (s.node i).state.leads = true; rw [of_decide_eq_true hpre]; rfl, rfl⟩) rfl rfl (Nat.le_refl _)
  | apply i ds =>
    have hpre : (decide ((s.node i).state = .leader) && decide (ds ≠ [])) = true := hpre
    rw [Bool.and_eq_true, decide_eq_true_eq] at hpre
    refine .lead (by show (s.node i).state.leads = true; rw [hpre.1]; rfl) (by show (s.node i).state.leads = true; rw [hpre.1]; rfl) (Or.inl rfl) rfl
      (ds.map (fun d => ⟨(s.node i).term, .data d⟩)) rfl ?_ ?_
    · intro e he
      obtain ⟨d, _, rfl⟩ := List.mem_map.mp he
      rfl
    · show (s.node i).bb.lastCommitted ≤ _
      exact Nat.le_of_eq (fold_lc ..).symm
  | changeConf i cf => exact absurd rfl (hcc i cf)
  | replSend i to prev => exact .keep (Or.inl rfl) rfl rfl (Nat.le_refl _)
  | replRead i f cnt =>
    show Fr c0 i (s.node i) (sReplRead i (s.node i) f cnt).1
    unfold sReplRead
    split <;> exact .keep (Or.inl rfl) rfl rfl (Nat.le_refl _)
  | replRes i who first upTo n => exact .keep (Or.inl rfl) rfl rfl (Nat.le_refl _)
  | replAck i f =>
    show Fr c0 i (s.node i) (sReplAck (s.node i) f)
    unfold sReplAck
    split
    · exact .keep (Or.inl rfl) rfl rfl (commitAt_le _ _ _ _ hd.lc)
    · exact .keep (Or.inl rfl) rfl rfl (Nat.le_refl _)
  | append i t srv prev pt es cm ok gone => exact append_fr i (s.node i) t srv prev pt es cm ok gone
  | sendIS i to => exact .keep (Or.inl rfl) rfl rfl (Nat.le_refl _)
  | install i t srv K ok => exact install_fr i (s.node i) t srv K ok
  | disk i =>
    show Fr c0 i (s.node i) (sDisk i (s.node i)).1
    unfold sDisk
    split
    · exact .keep (Or.inl rfl) rfl rfl (Nat.le_refl _)
    · dsimp only
      split
      · exact .keep (Or.inl rfl) rfl rfl (Nat.le_refl _)
      · exact .keep (Or.inl rfl) rfl rfl (Nat.le_refl _)
      · exact .keep (Or.inl rfl) rfl rfl (Nat.le_refl _)
      · split
        · exact .keep (Or.inl rfl) rfl rfl (Nat.le_refl _)
        · exact .keep (Or.inl rfl) rfl rfl (setCommitted_le _ _)
      · exact .keep (Or.inl rfl) rfl rfl (commitAt_le _ _ _ _ hd.lc)
  | fsm i => exact .keep (Or.inl rfl) rfl rfl (Nat.le_refl _)
  | saveSnap i k => exact .keep (Or.inl rfl) rfl rfl (Nat.le_refl _)
  | copied i => exact .keep (Or.inl rfl) rfl rfl (Nat.le_refl _)
  | loaded i =>
    have hpre : decide ((s.node i).dl = some (s.node i).psnap) = true := hpre
    have hf : (s.node i).state = .follower := hd.dl (by show (s.node i).dl ≠ none; rw [of_decide_eq_true hpre]; intro h; cases h)
    show Fr c0 i (s.node i) (sLoaded (s.node i))
    unfold sLoaded
    dsimp only
    split
    · split
      · exact .fol hf (Nat.le_refl _)
      · exact .fol hf (Nat.le_refl _)
    · exact .fol hf (Nat.le_refl _)
  | dlDrop i => exact .keep (Or.inl rfl) rfl rfl (Nat.le_refl _)
  | crash i => cases hr

end Braft.CN
