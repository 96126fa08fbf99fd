import Verif.Cluster.WitnessRel
import Verif.Cluster.SimD
import Verif.Cluster.Traces
/-
A cluster with witnesses behaves as a cluster without (Verif/Cluster/Server.lean), up to the data of entries on witnesses.
-/
set_option linter.unusedVariables false
set_option linter.unusedSimpArgs false
set_option linter.unusedSectionVars false

namespace Braft.Cl
open Braft.Raft Braft.Cl.Traces
variable {N D : Type} [DecidableEq N] [DecidableEq D]

/-- A message of the cluster with witnesses and the one without. -/
inductive WMR (W : WParams N D) : CMsg N (Option D) → CMsg N (Option D) → Prop where
  | same (m) : WMR W m m
  | ae {t l to prev pt es es' cm} : W.wit to = true → BL (!W.toLeader) es es' →
      WMR W (.aeReq t l to prev pt es cm) (.aeReq t l to prev pt es' cm)
  | is {t l to K K'} : W.wit to = true → BL (!W.toLeader) K K' → WMR W (.isReq t l to K) (.isReq t l to K')

/-- The events. -/
inductive WER (W : WParams N D) : Ev N (Option D) → Ev N (Option D) → Prop where
  | same (e) : WER W e e
  | ap {i k e e'} : W.wit i = true → Blur (!W.toLeader) e e' → WER W (.applied i k e) (.applied i k e')

/-- A node. -/
def WNR (W : WParams N D) (i : N) (c c' : Srv N (Option D)) : Prop :=
  if W.wit i = true then SB (!W.toLeader) c c' else c' = c

/-- A node that never stands for election. -/
def Idle (c : Srv N (Option D)) : Prop :=
  c.state = .follower ∧ c.elects = [] ∧ c.timers = [] ∧ c.rpcs = [] ∧ c.repl = []

structure WR (W : WParams N D) (s w : CSys N (Option D)) : Prop where
  node : ∀ i, WNR W i (s.node i) (w.node i)
  msg : ∀ m ∈ w.msgs, ∃ m' ∈ s.msgs, WMR W m' m
  ev : ∀ e ∈ w.ev, ∃ e' ∈ s.ev, WER W e' e
  idle : W.toLeader = false → ∀ i, W.wit i = true → Idle (s.node i)
  lead : W.toLeader = false → ∀ i t, Ev.lead i t ∈ s.ev → W.wit i ≠ true

variable {W : WParams N D} {p : CParams} {c0 : Conf N}

theorem blank_blur (d : D) (e : Entry N (Option D)) : Blur true e (blank d e) := by
  obtain ⟨t, pl⟩ := e
  cases pl with
  | data x => exact Or.inr ⟨rfl, rfl, rfl, Or.inl rfl⟩
  | conf c => exact Or.inl rfl

theorem absent_blur {any : Bool} (e : Entry N (Option D)) : Blur any e (absent e) := by
  obtain ⟨t, pl⟩ := e
  cases pl with
  | data x => exact Or.inr ⟨rfl, rfl, rfl, Or.inr rfl⟩
  | conf c => exact Or.inl rfl

theorem map_blur {any : Bool} {f : Entry N (Option D) → Entry N (Option D)} (h : ∀ e, Blur any e (f e)) :
    ∀ l : Log N (Option D), BL any l (l.map f)
  | [] => .nil
  | e :: l => .cons (h e) (map_blur h l)

theorem wout_rel (m : CMsg N (Option D)) : WMR W m (wout W m) := by
  cases m with
  | aeReq t l to prev pt es cm =>
    unfold wout
    dsimp only
    by_cases h : (W.wit to && !W.toLeader) = true
    · rw [if_pos h]
      simp only [Bool.and_eq_true, Bool.not_eq_true'] at h
      refine .ae h.1 ?_
      rw [h.2]
      exact map_blur (blank_blur _) _
    · rw [if_neg h]; exact .same _
  | isReq t l to K =>
    unfold wout
    dsimp only
    split
    · rename_i h; exact .is h (map_blur absent_blur _)
    · exact .same _
  | rvReq => exact .same _
  | rvRes => exact .same _
  | aeRes => exact .same _

/-- Readable entries are the real ones. -/
theorem BL.readable {l l' : Log N (Option D)} (h : BL false l l') (hr : l'.all Entry.readable = true) : l' = l := by
  induction h with
  | nil => rfl
  | @cons e e' l l' x _ ih =>
    rw [List.all_cons, Bool.and_eq_true] at hr
    rw [ih hr.2]
    rcases x with rfl | ⟨_, _, _, h | h⟩
    · rfl
    · cases h
    · have := hr.1
      unfold Entry.readable at this
      rw [h] at this
      cases this

/-- Results of a step: of the node without witnesses, and of that with. -/
structure WRes (W : WParams N D) (i : N) (r r' : Res N (Option D)) : Prop where
  node : WNR W i r.1 r'.1
  msg : ∀ m ∈ r'.2.1, ∃ m' ∈ r.2.1, WMR W m' (wout W m)
  ev : ∀ e ∈ r'.2.2, ∃ e' ∈ r.2.2, WER W e' e

theorem WRes.same {i : N} (hw : W.wit i ≠ true) (r : Res N (Option D)) : WRes W i r r :=
  ⟨by unfold WNR; rw [if_neg hw], fun m hm => ⟨m, hm, wout_rel m⟩, fun e he => ⟨e, he, .same e⟩⟩

theorem WRes.rb {i : N} (hw : W.wit i = true) {r r' : Res N (Option D)} (h : RB (!W.toLeader) r r') : WRes W i r r' :=
  ⟨by unfold WNR; rw [if_pos hw]; exact h.1, fun m hm => ⟨m, by rw [← h.2]; exact hm, wout_rel m⟩,
    fun e he => ⟨e, by rw [← h.2]; exact he, .same e⟩⟩

/-- Two committed logs with the same last id are the same. -/
theorem dl_eq {s : CSys N (Option D)} (hp : COk p) (h : CReachable p c0 s) {i : N} {K : Log N (Option D)}
    (hd : (s.node i).dl = some K) (hl : lastId K = lastId (s.node i).psnap) : K = (s.node i).psnap := by
  obtain ⟨a, ha, hr⟩ := sim_reach hp h
  have hI := inv_reachable ha
  have hd' := ((hI.n i).dlc K (by rw [(hr.node i).dl]; exact hd)).1
  have hc := (hI.n i).cs
  rw [(hr.node i).psnap] at hc
  have hlen : K.length = (s.node i).psnap.length := by
    unfold lastId at hl; exact (Prod.mk.inj hl).2
  rcases hI.g.comm_total hd' hc with h | h
  · exact h.eq_of_length hlen
  · exact (h.eq_of_length hlen.symm).symm

/-! ### Preconditions -/

theorem SB.electOk {any : Bool} {c c' : Srv N (Option D)} (h : SB any c c') : electOk p c' = electOk p c := by
  unfold Cl.electOk
  rw [h.log.len, h.snap.len, h.queue.noLeader]
  have : decide (c'.dl = none) = decide (c.dl = none) := by
    rw [decide_eq_decide]; exact h.dl.none_iff
  rw [this]

/-- Messages other than append entries and install snapshot requests are the same. -/
theorem WR.mem_vres {s w : CSys N (Option D)} (h : WR W s w) {t v cnd g rj d u q}
    (hm : CMsg.rvRes t v cnd g rj d u q ∈ w.msgs) : CMsg.rvRes t v cnd g rj d u q ∈ s.msgs := by
  obtain ⟨m', h1, h2⟩ := h.msg _ hm
  cases h2; exact h1

theorem WR.mem_vreq {s w : CSys N (Option D)} (h : WR W s w) {t cnd to cl d}
    (hm : CMsg.rvReq t cnd to cl d ∈ w.msgs) : CMsg.rvReq t cnd to cl d ∈ s.msgs := by
  obtain ⟨m', h1, h2⟩ := h.msg _ hm
  cases h2; exact h1

theorem WR.mem_ares {s w : CSys N (Option D)} (h : WR W s w) {t l who ok u up n}
    (hm : CMsg.aeRes t l who ok u up n ∈ w.msgs) : CMsg.aeRes t l who ok u up n ∈ s.msgs := by
  obtain ⟨m', h1, h2⟩ := h.msg _ hm
  cases h2; exact h1

theorem WR.mem_ae {s w : CSys N (Option D)} (h : WR W s w) {t l to prev pt es cm}
    (hm : CMsg.aeReq t l to prev pt es cm ∈ w.msgs) :
    ∃ es0, CMsg.aeReq t l to prev pt es0 cm ∈ s.msgs ∧ BL (!W.toLeader) es0 es ∧ (W.wit to ≠ true → es0 = es) := by
  obtain ⟨m', h1, h2⟩ := h.msg _ hm
  cases h2 with
  | same => exact ⟨es, h1, BL.refl _, fun _ => rfl⟩
  | ae hw hb => exact ⟨_, h1, hb, fun x => absurd hw x⟩

theorem WR.mem_is {s w : CSys N (Option D)} (h : WR W s w) {t l to K} (hm : CMsg.isReq t l to K ∈ w.msgs) :
    ∃ K0, CMsg.isReq t l to K0 ∈ s.msgs ∧ BL (!W.toLeader) K0 K ∧ (W.wit to ≠ true → K0 = K) := by
  obtain ⟨m', h1, h2⟩ := h.msg _ hm
  cases h2 with
  | same => exact ⟨K, h1, BL.refl _, fun _ => rfl⟩
  | is hw hb => exact ⟨_, h1, hb, fun x => absurd hw x⟩

/-- A step of a node that is no witness. -/
theorem wsim_other {s w : CSys N (Option D)} (hp : COk p) (hs : CReachable p c0 s) (h : WR W s w) {a : CAct N (Option D)}
    (hw : W.wit a.at ≠ true) (ha : wpre p W c0 w a = true) : cpre p c0 s a = true := by
  have hn : w.node a.at = s.node a.at := by have := h.node a.at; unfold WNR at this; rwa [if_neg hw] at this
  unfold wpre at ha
  rw [Bool.and_eq_true] at ha
  replace ha := ha.2
  cases a <;> dsimp only [CAct.at] at hn hw ha <;>
    try (unfold cpre at ha ⊢; dsimp only at ha ⊢; rw [← hn]; exact ha)
  case crash i => rfl
  case voteRes i r g rj d rt pt ok =>
    unfold cpre at ha ⊢; dsimp only at ha ⊢
    rw [Bool.and_eq_true, decide_eq_true_eq, decide_eq_true_eq] at ha ⊢
    exact ⟨by rw [← hn]; exact ha.1, h.mem_vres ha.2⟩
  case voteReq i t cand claim dis =>
    unfold cpre at ha ⊢; dsimp only at ha ⊢
    rw [decide_eq_true_eq] at ha ⊢
    exact h.mem_vreq ha
  case replRes i who f up n =>
    unfold cpre at ha ⊢; dsimp only at ha ⊢
    rw [Bool.and_eq_true, decide_eq_true_eq] at ha ⊢
    exact ⟨by rw [← hn]; exact ha.1, by rw [← hn]; exact h.mem_ares ha.2⟩
  case append i t srv prev pt es cm ok gone =>
    unfold cpre at ha ⊢; dsimp only at ha ⊢
    rw [Bool.and_eq_true, decide_eq_true_eq] at ha ⊢
    refine ⟨?_, by rw [← hn]; exact ha.2⟩
    obtain ⟨es0, h1, _, h3⟩ := h.mem_ae ha.1
    rw [← h3 hw]; exact h1
  case install i t srv K ok =>
    unfold cpre at ha ⊢; dsimp only at ha ⊢
    rw [decide_eq_true_eq] at ha ⊢
    obtain ⟨es0, h1, _, h3⟩ := h.mem_is ha
    rw [← h3 hw]; exact h1
  case loaded i =>
    unfold cpre
    rw [hn] at ha
    rw [decide_eq_true_eq]
    cases hd : (s.node i).dl with
    | none => rw [hd] at ha; cases ha
    | some K =>
      rw [hd] at ha
      dsimp only at ha
      rw [decide_eq_true_eq] at ha
      rw [dl_eq hp hs hd ha]
  case dlDrop i =>
    unfold cpre
    rw [hn] at ha
    rw [Bool.and_eq_true, decide_eq_true_eq, decide_eq_true_eq]
    cases hd : (s.node i).dl with
    | none => rw [hd] at ha; cases ha
    | some K =>
      rw [hd] at ha
      dsimp only at ha
      rw [decide_eq_true_eq] at ha
      exact ⟨by simp, fun x => ha (by cases x; rfl)⟩

section
variable {any : Bool} {c c' : Srv N (Option D)}

theorem SB.apply1 (h : SB any c c') (i : N) : SB any (sApply i c).1 (sApply i c').1 := by
  cases h with
  | mk h1 h2 h3 h4 h5 h6 h7 =>
    exact .mk (c := { c with applied := c.applied + 1, sm := c.sm ++ (c.log.drop c.applied).take 1 }) h1 h2 h3 h4 h5 h6
      (h7.append ((h1.drop _).take 1))

theorem SB.saveSnap (h : SB any c c') (k : Nat) :
    SB any { c with snap := c.sm.take k, psnap := c.sm.take k } { c' with snap := c'.sm.take k, psnap := c'.sm.take k } := by
  cases h with
  | mk h1 h2 h3 h4 h5 h6 h7 =>
    exact .mk (c := { c with snap := c.sm.take k, psnap := c.sm.take k }) h1 h2 h3 (h7.take k) (h7.take k) h6 h7

theorem OB.getD {d d' : Option (Log N (Option D))} {l l' : Log N (Option D)} (h : OB any d d') (k : BL any l l') :
    BL any (d.getD l) (d'.getD l') := by
  cases h with
  | no => exact k
  | yes h => exact h

theorem SB.copied (h : SB any c c') :
    SB any { c with psnap := c.dl.getD c.psnap } { c' with psnap := c'.dl.getD c'.psnap } := by
  cases h with
  | mk h1 h2 h3 h4 h5 h6 h7 =>
    exact .mk (c := { c with psnap := c.dl.getD c.psnap }) h1 h2 h3 h4 (h6.getD h5) h6 h7

theorem SB.dlDrop (h : SB any c c') : SB any { c with dl := none } { c' with dl := none } := by
  cases h with
  | mk h1 h2 h3 h4 h5 h6 h7 => exact .mk (c := { c with dl := none }) h1 h2 h3 h4 h5 .no h7

theorem SB.applyEv (h : SB any c c') (i : N) {e : Ev N (Option D)} (he : e ∈ (sApply i c').2.2) :
    ∃ e0 e1, Ev.applied i (c.applied + 1) e0 ∈ (sApply i c).2.2 ∧ Blur any e0 e1 ∧ e = .applied i (c.applied + 1) e1 := by
  have hg := h.log.get c.applied
  unfold sApply at he ⊢
  dsimp only at he ⊢
  rw [h.applied] at he
  rcases hg with ⟨g1, g2⟩ | ⟨e0, e1, g1, g2, g3⟩
  · rw [g2] at he; cases he
  · rw [g2] at he; rw [g1]
    dsimp only at he ⊢
    rw [List.mem_singleton] at he
    exact ⟨e0, e1, List.mem_singleton.mpr rfl, g3, he⟩

end

/-- A step of a witness. -/
theorem wsim_wit {s w : CSys N (Option D)} (hp : COk p) (hs : CReachable p c0 s) (h : WR W s w) {a : CAct N (Option D)}
    (hw : W.wit a.at = true) (ha : wpre p W c0 w a = true) :
    ∃ a', a'.at = a.at ∧ (∀ j ds, a' = .apply j ds → a = .apply j ds) ∧ cpre p c0 s a' = true ∧ wextra W s a' = true ∧
      WRes W a.at (ceff p c0 (s.node a.at) a') (ceff p c0 (w.node a.at) a) := by
  have hn : SB (!W.toLeader) (s.node a.at) (w.node a.at) := by have := h.node a.at; unfold WNR at this; rwa [if_pos hw] at this
  unfold wpre at ha
  rw [Bool.and_eq_true] at ha
  obtain ⟨he, ha⟩ := ha
  have fin : ∀ a', a'.at = a.at → (∀ j ds, a' = .apply j ds → a = .apply j ds) → cpre p c0 s a' = true → wextra W s a' = true →
      RB (!W.toLeader) (ceff p c0 (s.node a.at) a') (ceff p c0 (w.node a.at) a) → 
      ∃ a', a'.at = a.at ∧ (∀ j ds, a' = .apply j ds → a = .apply j ds) ∧ cpre p c0 s a' = true ∧ wextra W s a' = true ∧
      WRes W a.at (ceff p c0 (s.node a.at) a') (ceff p c0 (w.node a.at) a) :=
    fun a' h1 h1' h2 h3 h4 => ⟨a', h1, h1', h2, h3, .rb hw h4⟩
  cases a <;> dsimp only [CAct.at] at hn hw ha fin ⊢
  case elect i =>
    refine fin (.elect i) rfl (by intro j ds hj; first | exact hj | cases hj) ?_ he ⟨hn.electA c0 i false, rfl⟩
    unfold cpre at ha ⊢; dsimp only at ha ⊢
    rw [hn.state, hn.electOk] at ha; exact ha
  case timeoutNow i t st ok =>
    refine fin (.timeoutNow i t st ok) rfl (by intro j ds hj; first | exact hj | cases hj) ?_ ?_ ⟨hn.timeoutNow c0 i t st ok, rfl⟩
    · unfold cpre at ha ⊢; dsimp only at ha ⊢
      rw [hn.state, hn.electOk, hn.term] at ha; exact ha
    · unfold wextra at he ⊢; dsimp only at he ⊢; rw [hn.term] at he; exact he
  case electB i f ok free =>
    refine fin (.electB i f ok free) rfl (by intro j ds hj; first | exact hj | cases hj) ?_ he (hn.electB p c0 i f ok free)
    unfold cpre at ha ⊢; dsimp only at ha ⊢
    rw [hn.elects] at ha; exact ha
  case electDie i f =>
    refine fin (.electDie i f) rfl (by intro j ds hj; first | exact hj | cases hj) ?_ he ⟨hn.restart, by show (_, _) = (_, _); rw [(hn.electAsk c0 i f).2]⟩
    unfold cpre at ha ⊢; dsimp only at ha ⊢
    rw [hn.elects, hn.term] at ha; exact ha
  case timer i v free =>
    refine fin (.timer i v free) rfl (by intro j ds hj; first | exact hj | cases hj) ?_ he (hn.timer p c0 i v free)
    unfold cpre at ha ⊢; dsimp only at ha ⊢
    rw [hn.timers] at ha; exact ha
  case voteRes i r g rj d rt pt ok =>
    refine fin (.voteRes i r g rj d rt pt ok) rfl (by intro j ds hj; first | exact hj | cases hj) ?_ he (hn.voteRes p c0 i r g rj d rt pt ok)
    unfold cpre at ha ⊢; dsimp only at ha ⊢
    rw [hn.rpcs, Bool.and_eq_true, decide_eq_true_eq, decide_eq_true_eq] at ha
    rw [Bool.and_eq_true, decide_eq_true_eq, decide_eq_true_eq]
    exact ⟨ha.1, h.mem_vres ha.2⟩
  case voteReq i t cand claim dis =>
    refine fin (.voteReq i t cand claim dis) rfl (by intro j ds hj; first | exact hj | cases hj) ?_ he (hn.voteReqA i t cand claim)
    unfold cpre at ha ⊢; dsimp only at ha ⊢
    rw [decide_eq_true_eq] at ha ⊢
    exact h.mem_vreq ha
  case voteReqB i f free ok g =>
    refine fin (.voteReqB i f free ok g) rfl (by intro j ds hj; first | exact hj | cases hj) ?_ he (hn.voteReqB i f free ok g)
    unfold cpre at ha ⊢; dsimp only at ha ⊢
    rw [hn.vcalls, hn.term, hn.log.lastId] at ha; exact ha
  case stepDown i t ok =>
    refine fin (.stepDown i t ok) rfl (by intro j ds hj; first | exact hj | cases hj) ?_ he ⟨hn.stepDown t ok, rfl⟩
    unfold cpre at ha ⊢; dsimp only at ha ⊢
    rw [hn.term] at ha; exact ha
  case transfer i =>
    refine fin (.transfer i) rfl (by intro j ds hj; first | exact hj | cases hj) ?_ he ⟨hn.map (f := fun c => { c with state := .transferring })
      (fun _ _ _ _ _ _ _ => rfl) rfl rfl rfl rfl rfl rfl rfl, rfl⟩
    unfold cpre at ha ⊢; dsimp only at ha ⊢
    rw [hn.state] at ha; exact ha
  case transferTimeout i =>
    refine fin (.transferTimeout i) rfl (by intro j ds hj; first | exact hj | cases hj) ?_ he ⟨hn.map (f := fun c => { c with state := .leader })
      (fun _ _ _ _ _ _ _ => rfl) rfl rfl rfl rfl rfl rfl rfl, rfl⟩
    unfold cpre at ha ⊢; dsimp only at ha ⊢
    rw [hn.state] at ha; exact ha
  case apply i ds =>
    refine fin (.apply i ds) rfl (by intro j ds hj; first | exact hj | cases hj) ?_ he ⟨?_, rfl⟩
    · unfold cpre at ha ⊢; dsimp only at ha ⊢
      rw [hn.state] at ha; exact ha
    · show SB _ (sAppendOwn _ _ _) (sAppendOwn _ _ _)
      rw [hn.conf c0, hn.term]
      exact hn.appendOwn _ _
  case changeConf i cf =>
    refine fin (.changeConf i cf) rfl (by intro j ds hj; first | exact hj | cases hj) ?_ he ⟨?_, rfl⟩
    · unfold cpre at ha ⊢; dsimp only at ha ⊢
      rw [hn.state, hn.log.lastConfIdx, hn.bb, hn.conf c0] at ha; exact ha
    · show SB _ (sAppendOwn _ _ _) (sAppendOwn _ _ _)
      rw [hn.term]
      exact hn.appendOwn _ _
  case replSend i to prev =>
    refine fin (.replSend i to prev) rfl (by intro j ds hj; first | exact hj | cases hj) ?_ he ⟨hn.replSend to prev, rfl⟩
    unfold cpre at ha ⊢; dsimp only at ha ⊢
    rw [hn.state, hn.log.len] at ha; exact ha
  case replRead i f cnt =>
    have hc : cpre p c0 s (.replRead i f cnt) = true := by
      unfold cpre at ha ⊢; dsimp only at ha ⊢
      rw [hn.state, hn.repl, hn.term] at ha; exact ha
    cases f with
    | ack t pr fi la =>
      unfold cpre at hc; dsimp only at hc; rw [Bool.and_false] at hc; cases hc
    | send t to prev pt cm =>
      have htl : W.toLeader = true := by
        cases hb : W.toLeader with
        | true => rfl
        | false =>
          have := (h.idle hb i hw).2.2.2.2
          unfold cpre at hc; dsimp only at hc; rw [this] at hc; simp at hc
      have hrd : ((((w.node i).log.drop prev).take cnt).all Entry.readable) = true := he
      have hl := hn.log
      rw [htl] at hl
      have hL := BL.readable ((hl.drop prev).take cnt) hrd
      refine fin (.replRead i (.send t to prev pt cm) cnt) rfl (by intro j ds hj; first | exact hj | cases hj) hc ?_ ⟨?_, ?_⟩
      · show (((s.node i).log.drop prev).take cnt).all Entry.readable = true
        rw [← hL]; exact hrd
      · exact hn.map (f := fun c => { c with repl := c.repl.erase (.send t to prev pt cm) })
          (fun _ _ _ _ _ _ _ => rfl) rfl rfl rfl rfl rfl rfl rfl
      · show ([CMsg.aeReq t i to prev pt (((w.node i).log.drop prev).take cnt) cm], ([] : List (Ev N (Option D)))) =
          ([CMsg.aeReq t i to prev pt (((s.node i).log.drop prev).take cnt) cm], [])
        rw [hL]
  case replRes i who f up n =>
    refine fin (.replRes i who f up n) rfl (by intro j ds hj; first | exact hj | cases hj) ?_ he ⟨hn.replRes who f up, rfl⟩
    unfold cpre at ha ⊢; dsimp only at ha ⊢
    rw [Bool.and_eq_true, decide_eq_true_eq] at ha ⊢
    rw [hn.state, hn.term] at ha
    exact ⟨ha.1, h.mem_ares ha.2⟩
  case replAck i f =>
    refine fin (.replAck i f) rfl (by intro j ds hj; first | exact hj | cases hj) ?_ he ⟨hn.replAck f, rfl⟩
    unfold cpre at ha ⊢; dsimp only at ha ⊢
    rw [hn.state, hn.repl, hn.term] at ha; exact ha
  case append i t srv prev pt es cm ok gone =>
    unfold cpre at ha; dsimp only at ha
    rw [Bool.and_eq_true, decide_eq_true_eq] at ha
    obtain ⟨es0, h1, h2, h3⟩ := h.mem_ae ha.1
    refine fin (.append i t srv prev pt es0 cm ok gone) rfl (by intro j ds hj; first | exact hj | cases hj) ?_ he (hn.append i t srv prev pt h2 cm ok gone)
    unfold cpre; dsimp only
    rw [Bool.and_eq_true, decide_eq_true_eq]
    refine ⟨h1, ?_⟩
    have := ha.2
    rwa [hn.snap.len] at this
  case sendIS i to =>
    have he : (!W.wit i) = true := he
    rw [hw] at he; cases he
  case install i t srv K ok =>
    unfold cpre at ha; dsimp only at ha
    rw [decide_eq_true_eq] at ha
    obtain ⟨K0, h1, h2, h3⟩ := h.mem_is ha
    refine fin (.install i t srv K0 ok) rfl (by intro j ds hj; first | exact hj | cases hj) ?_ he (hn.install i t srv h2 ok)
    unfold cpre; dsimp only
    rw [decide_eq_true_eq]; exact h1
  case disk i =>
    refine fin (.disk i) rfl (by intro j ds hj; first | exact hj | cases hj) ?_ he (hn.diskStep i)
    unfold cpre at ha ⊢; dsimp only at ha ⊢
    rw [decide_eq_true_eq] at ha ⊢
    exact fun x => ha (hn.queue.nil_iff.mpr x)
  case fsm i =>
    refine ⟨.fsm i, rfl, (by intro j ds hj; cases hj), ?_, he, ?_⟩
    · unfold cpre at ha ⊢; dsimp only at ha ⊢
      rw [hn.applied, hn.bb] at ha; exact ha
    · refine ⟨?_, fun m hm => absurd hm List.not_mem_nil, ?_⟩
      · unfold WNR
        rw [if_pos hw]
        exact hn.apply1 i
      · intro e he
        obtain ⟨e0, e1, h1, h2, h3⟩ := hn.applyEv i he
        subst h3
        exact ⟨_, h1, .ap hw h2⟩
  case saveSnap i k =>
    refine fin (.saveSnap i k) rfl (by intro j ds hj; first | exact hj | cases hj) ?_ he ⟨?_, rfl⟩
    · unfold cpre at ha ⊢; dsimp only at ha ⊢
      have : decide ((w.node i).dl = none) = decide ((s.node i).dl = none) := by
        rw [decide_eq_decide]; exact hn.dl.none_iff
      rw [this, hn.psnap.len, hn.applied, hn.pterm, hn.term] at ha; exact ha
    · exact hn.saveSnap k
  case copied i =>
    refine fin (.copied i) rfl (by intro j ds hj; first | exact hj | cases hj) ?_ he ⟨?_, rfl⟩
    · unfold cpre at ha ⊢; dsimp only at ha ⊢
      have : decide ((w.node i).dl ≠ none) = decide ((s.node i).dl ≠ none) := by
        rw [decide_eq_decide]; exact not_congr hn.dl.none_iff
      rw [this, hn.pterm, hn.term] at ha; exact ha
    · exact hn.copied
  case loaded i =>
    refine fin (.loaded i) rfl (by intro j ds hj; first | exact hj | cases hj) ?_ he ⟨hn.loaded, rfl⟩
    unfold cpre
    rw [decide_eq_true_eq]
    have hd := hn.dl
    generalize hB : (w.node i).dl = d' at hd ha
    generalize hA : (s.node i).dl = d at hd ⊢
    cases hd with
    | no => cases ha
    | yes hk =>
      dsimp only at ha
      rw [decide_eq_true_eq, hk.lastId, hn.psnap.lastId] at ha
      rw [dl_eq hp hs hA ha]
  case dlDrop i =>
    refine fin (.dlDrop i) rfl (by intro j ds hj; first | exact hj | cases hj) ?_ he ⟨?_, rfl⟩
    · unfold cpre
      rw [Bool.and_eq_true, decide_eq_true_eq, decide_eq_true_eq]
      have hd := hn.dl
      generalize hB : (w.node i).dl = d' at hd ha
      generalize hA : (s.node i).dl = d at hd ⊢
      cases hd with
      | no => cases ha
      | yes hk =>
        dsimp only at ha
        rw [decide_eq_true_eq, hk.lastId, hn.psnap.lastId] at ha
        exact ⟨by simp, fun x => ha (by cases x; rfl)⟩
    · exact hn.dlDrop
  case crash i => exact fin (.crash i) rfl (by intro j ds hj; first | exact hj | cases hj) rfl he ⟨hn.restart, rfl⟩

/-- A witness never stands for election. -/
theorem idle_eff {s : CSys N (Option D)} {a : CAct N (Option D)} (hn : W.noXfer = true) (htl : W.toLeader = false)
    (hw : W.wit a.at = true) (hi : Idle (s.node a.at)) (he : wextra W s a = true) (ha : cpre p c0 s a = true) :
    Idle (ceff p c0 (s.node a.at) a).1 := by
  obtain ⟨h1, h2, h3, h4, h5⟩ := hi
  have hck : ∀ i t srv ok, Idle (s.node i) → Idle (sCheckStepDown i (s.node i) t srv ok).1 := by
    intro i t srv ok ⟨h1, h2, h3, h4, h5⟩
    unfold sCheckStepDown
    dsimp only
    split <;> split <;> exact ⟨by first | rfl | exact h1, h2, h3, h4, h5⟩
  cases a <;> dsimp only [CAct.at] at h1 h2 h3 h4 h5 hw ⊢
  case elect i =>
    have he : (!W.wit i || W.toLeader) = true := he
    rw [hw, htl] at he; cases he
  case timeoutNow i t st ok =>
    have he : (!W.noXfer || !W.wit i || W.toLeader || decide (t ≠ (s.node i).term)) = true := he
    rw [hw, htl, hn] at he
    have ht : t ≠ (s.node i).term := by simpa using he
    show Idle (sTimeoutNow c0 i (s.node i) t st ok)
    unfold sTimeoutNow
    rw [if_pos ht]
    split
    · exact ⟨rfl, h2, h3, h4, h5⟩
    · exact ⟨h1, h2, h3, h4, h5⟩
  case electB i f ok free => unfold cpre at ha; dsimp only at ha; rw [h2] at ha; simp at ha
  case electDie i f => exact ⟨rfl, rfl, rfl, rfl, rfl⟩
  case timer i v free => unfold cpre at ha; dsimp only at ha; rw [h3] at ha; simp at ha
  case voteRes i r g rj d rt pt ok => unfold cpre at ha; dsimp only at ha; rw [h4] at ha; simp at ha
  case voteReq i t cand claim dis =>
    show Idle (sVoteReqA i (s.node i) t cand claim).1
    unfold sVoteReqA
    split <;> exact ⟨h1, h2, h3, h4, h5⟩
  case voteReqB i f free ok g =>
    show Idle (sVoteReqB i (s.node i) f free ok g).1
    unfold sVoteReqB sVoteCast
    dsimp only
    repeat' split
    all_goals exact ⟨by first | rfl | exact h1, h2, h3, h4, h5⟩
  case stepDown i t ok => exact ⟨rfl, h2, h3, h4, h5⟩
  case transfer i => unfold cpre at ha; dsimp only at ha; rw [h1] at ha; cases ha
  case transferTimeout i => unfold cpre at ha; dsimp only at ha; rw [h1] at ha; cases ha
  case apply i ds => unfold cpre at ha; dsimp only at ha; rw [h1] at ha; cases ha
  case changeConf i cf => unfold cpre at ha; dsimp only at ha; rw [h1] at ha; cases ha
  case replSend i to prev => unfold cpre at ha; dsimp only at ha; rw [h1] at ha; cases ha
  case replRead i f cnt => unfold cpre at ha; dsimp only at ha; rw [h5] at ha; simp at ha
  case replRes i who f up n => unfold cpre at ha; dsimp only at ha; rw [h1] at ha; cases ha
  case replAck i f => unfold cpre at ha; dsimp only at ha; rw [h5] at ha; simp at ha
  case append i t srv prev pt es cm ok gone =>
    show Idle (sAppend i (s.node i) t srv prev pt es cm ok gone).1
    have hc := hck i t srv ok ⟨h1, h2, h3, h4, h5⟩
    unfold sAppend
    dsimp only
    generalize sCheckStepDown i (s.node i) t srv ok = r at hc ⊢
    obtain ⟨k1, k2, k3, k4, k5⟩ := hc
    by_cases b0 : t < (s.node i).term
    · rw [if_pos b0]; exact ⟨h1, h2, h3, h4, h5⟩
    · rw [if_neg b0]
      by_cases b1 : r.1.leaderId ≠ some srv
      · rw [if_pos b1]; exact ⟨rfl, k2, k3, k4, k5⟩
      · rw [if_neg b1]
        split
        · exact ⟨k1, k2, k3, k4, k5⟩
        · generalize (if gone = true then 0 else termAt r.1.log prev) = pt'
          repeat' split
          all_goals exact ⟨k1, k2, k3, k4, k5⟩
  case sendIS i to => exact ⟨h1, h2, h3, h4, h5⟩
  case install i t srv K ok =>
    show Idle (sInstall i (s.node i) t srv K ok).1
    have hc := hck i t srv ok ⟨h1, h2, h3, h4, h5⟩
    unfold sInstall
    dsimp only
    generalize sCheckStepDown i (s.node i) t srv ok = r at hc ⊢
    obtain ⟨k1, k2, k3, k4, k5⟩ := hc
    repeat' split
    all_goals first | exact ⟨h1, h2, h3, h4, h5⟩ | exact ⟨k1, k2, k3, k4, k5⟩ | exact ⟨rfl, k2, k3, k4, k5⟩
  case disk i =>
    show Idle (sDisk i (s.node i)).1
    unfold sDisk
    rw [h2]
    split
    · exact ⟨h1, h2, h3, h4, h5⟩
    · dsimp only
      split <;> try exact ⟨h1, rfl, h3, h4, h5⟩
      split <;> exact ⟨h1, rfl, h3, h4, h5⟩
  case fsm i => exact ⟨h1, h2, h3, h4, h5⟩
  case saveSnap i k => exact ⟨h1, h2, h3, h4, h5⟩
  case copied i => exact ⟨h1, h2, h3, h4, h5⟩
  case loaded i =>
    show Idle (sLoaded (s.node i))
    unfold sLoaded
    dsimp only
    repeat' split
    all_goals exact ⟨h1, h2, h3, h4, h5⟩
  case dlDrop i => exact ⟨h1, h2, h3, h4, h5⟩
  case crash i => exact ⟨rfl, rfl, rfl, rfl, rfl⟩

/-- Who becomes leader, and when. -/
theorem lead_ev {c : Srv N (Option D)} {a : CAct N (Option D)} {j : N} {t : Nat}
    (h : Ev.lead j t ∈ (ceff p c0 c a).2.2) :
    j = a.at ∧ ((∃ i f ok free, a = .electB i f ok free) ∨ (∃ i v free, a = .timer i v free) ∨
      ∃ i r g rj d rt pt ok, a = .voteRes i r g rj d rt pt ok) := by
  have bl : ∀ (i : N) (c : Srv N (Option D)), Ev.lead j t ∈ (sBecomeLeader p c0 i c).2.2 → j = i := by
    intro i c h
    unfold sBecomeLeader at h
    split at h
    · cases h
    · dsimp only at h; rw [List.mem_singleton] at h; cases h; rfl
  have gs : ∀ (i : N) (c : Srv N (Option D)) free, Ev.lead j t ∈ (sGrantSelf p c0 i c free).2.2 → j = i := by
    intro i c free h
    unfold sGrantSelf at h
    dsimp only at h
    split at h
    · split at h
      · exact bl i _ h
      · cases h
    · cases h
  have ck : ∀ (i : N) (c : Srv N (Option D)) u srv ok, Ev.lead j t ∉ (sCheckStepDown i c u srv ok).2 := by
    intro i c u srv ok h
    unfold sCheckStepDown at h
    dsimp only at h
    generalize (if c.term < u ∨ c.state ≠ .follower ∨ c.leaderId = none then sStepDown c u ok else c) = c1 at h
    split at h
    · rw [List.mem_singleton] at h; cases h
    · cases h
  cases a <;> try (exact absurd h List.not_mem_nil)
  case electB i f ok free =>
    refine ⟨?_, Or.inl ⟨_, _, _, _, rfl⟩⟩
    have h : Ev.lead j t ∈ (sElectB p c0 i c f ok free).2.2 := h
    unfold sElectB at h
    dsimp only at h
    split at h
    · cases h
    · split at h
      · exact gs i _ _ h
      · cases h
  case timer i v free =>
    refine ⟨?_, Or.inr (Or.inl ⟨_, _, _, rfl⟩)⟩
    have h : Ev.lead j t ∈ (sTimer p c0 i c v free).2.2 := h
    unfold sTimer at h
    dsimp only at h
    split at h
    · cases h
    · exact gs i _ _ h
  case voteRes i r g rj d rt pt ok =>
    refine ⟨?_, Or.inr (Or.inr ⟨_, _, _, _, _, _, _, _, rfl⟩)⟩
    have h : Ev.lead j t ∈ (sVoteRes p c0 i c r g rj d rt pt ok).2.2 := h
    have e : sVoteRes p c0 i c r g rj d rt pt ok =
      (fun (z : Srv N (Option D)) (vx : VoteCtx N) (st : St) (tm : Nat) (ll : Option N) =>
        if r.version ≠ vx.version then (z, [], [])
        else if st ≠ .candidate then (z, [], [])
        else if r.term ≠ tm then (z, [], [])
        else if tm < rt then (sStepDown z rt ok, [], [])
        else if ¬ g ∧ ¬ rj then (z, [], [])
        else
          let x1 : VoteCtx N := if d then { vx with disrupted := some (some r.peer, pt) } else vx
          let b1 := if g then x1.ballot.grant r.peer else x1.ballot
          voteTail p c0 i z { x1 with
            ballot := if g ∧ some r.peer = ll then b1.grant i else b1,
            reserved := if g then x1.reserved else r.peer :: x1.reserved } g)
      { c with rpcs := c.rpcs.erase r } c.ctx c.state c.term c.lastLeader := rfl
    rw [e] at h
    generalize ({ c with rpcs := c.rpcs.erase r } : Srv N (Option D)) = z at h
    have vt : ∀ (z : Srv N (Option D)) x, Ev.lead j t ∈ (voteTail p c0 i z x g).2.2 → j = i := by
      intro z x h
      unfold voteTail at h
      split at h
      · exact bl i _ h
      · split at h
        · cases h
        · cases h
    dsimp only at h
    split at h
    · cases h
    · split at h
      · cases h
      · split at h
        · cases h
        · split at h
          · cases h
          · split at h
            · cases h
            · exact vt _ _ h
  case voteReq i u cand claim dis =>
    have h : Ev.lead j t ∈ (sVoteReqA i c u cand claim).2.2 := h
    unfold sVoteReqA at h
    split at h <;> cases h
  case voteReqB i f free ok g =>
    have h : Ev.lead j t ∈ (sVoteReqB i c f free ok g).2.2 := h
    unfold sVoteReqB at h
    dsimp only at h
    split at h
    · cases h
    · split at h <;> cases h
  case replRead i f cnt =>
    cases f <;> cases h
  case append i u srv prev pt es cm ok gone =>
    exfalso
    have h : Ev.lead j t ∈ (sAppend i c u srv prev pt es cm ok gone).2.2 := h
    have k := ck i c u srv ok
    unfold sAppend at h
    dsimp only at h
    generalize sCheckStepDown i c u srv ok = r at h k
    generalize (if gone = true then 0 else termAt r.1.log prev) = pt' at h
    by_cases b0 : u < c.term
    · rw [if_pos b0] at h; cases h
    · rw [if_neg b0] at h
      by_cases b1 : r.1.leaderId ≠ some srv
      · rw [if_pos b1] at h; exact k h
      · rw [if_neg b1] at h
        repeat' split at h
        all_goals exact k h
  case install i u srv K ok =>
    exfalso
    have h : Ev.lead j t ∈ (sInstall i c u srv K ok).2.2 := h
    have k := ck i c u srv ok
    unfold sInstall at h
    dsimp only at h
    generalize sCheckStepDown i c u srv ok = r at h k
    repeat' split at h
    all_goals first | exact k h | cases h
  case disk i =>
    exfalso
    have h : Ev.lead j t ∈ (sDisk i c).2.2 := h
    unfold sDisk at h
    split at h
    · cases h
    · dsimp only at h
      split at h <;> try cases h
      split at h <;> cases h
  case fsm i =>
    exfalso
    have h : Ev.lead j t ∈ (sApply i c).2.2 := h
    unfold sApply at h
    dsimp only at h
    split at h
    · cases h
    · rw [List.mem_singleton] at h; cases h

theorem idle_no_lead {s : CSys N (Option D)} {a : CAct N (Option D)} (hi : Idle (s.node a.at)) (ha : cpre p c0 s a = true)
    {j : N} {t : Nat} : Ev.lead j t ∉ (ceff p c0 (s.node a.at) a).2.2 := by
  intro h
  obtain ⟨h1, h2, h3, h4, h5⟩ := hi
  obtain ⟨_, ⟨i, f, ok, free, rfl⟩ | ⟨i, v, free, rfl⟩ | ⟨i, r, g, rj, d, rt, pt, ok, rfl⟩⟩ := lead_ev h
  · have h2 : (s.node i).elects = [] := h2
    unfold cpre at ha; dsimp only at ha; rw [h2] at ha; simp at ha
  · have h3 : (s.node i).timers = [] := h3
    unfold cpre at ha; dsimp only at ha; rw [h3] at ha; simp at ha
  · have h4 : (s.node i).rpcs = [] := h4
    unfold cpre at ha; dsimp only at ha; rw [h4] at ha; simp at ha

/-- No hand-over to witnesses, unless they may lead. -/
def NoXfer (W : WParams N D) : Prop := W.noXfer = true ∨ W.toLeader = true

theorem wsim_step {s w w' : CSys N (Option D)} (hp : COk p) (hx : NoXfer W) (hs : CReachable p c0 s) (h : WR W s w)
    {a : CAct N (Option D)} (ha : wstep p W c0 w a = some w') : ∃ a' s', cstep p c0 s a' = some s' ∧ WR W s' w' ∧
      ∀ j ds, a' = .apply j ds → a = .apply j ds := by
  unfold wstep at ha
  split at ha
  · rename_i hpre
    have ha := Option.some.inj ha
    have key : ∃ a', a'.at = a.at ∧ (∀ j ds, a' = .apply j ds → a = .apply j ds) ∧ cpre p c0 s a' = true ∧
        WRes W a.at (ceff p c0 (s.node a.at) a') (ceff p c0 (w.node a.at) a) ∧
        (W.toLeader = false → W.wit a.at = true → Idle (ceff p c0 (s.node a.at) a').1) := by
      by_cases hw : W.wit a.at = true
      · obtain ⟨a', h1, h1', h2, h3, h4⟩ := wsim_wit hp hs h hw hpre
        refine ⟨a', h1, h1', h2, h4, fun htl _ => ?_⟩
        rcases hx with hx | hx
        · rw [← h1]
          exact idle_eff hx htl (by rw [h1]; exact hw) (by rw [h1]; exact h.idle htl _ hw) h3 h2
        · rw [hx] at htl; cases htl
      · have hn : w.node a.at = s.node a.at := by have := h.node a.at; unfold WNR at this; rwa [if_neg hw] at this
        exact ⟨a, rfl, fun _ _ x => x, wsim_other hp hs h hw hpre, by rw [hn]; exact .same hw _, fun _ x => absurd x hw⟩
    obtain ⟨a', h1, h1', h2, h3, h4⟩ := key
    rw [← h1] at h3 h4 ha
    refine ⟨a',
            { node := updF s.node a'.at (ceff p c0 (s.node a'.at) a').1,
              msgs := (ceff p c0 (s.node a'.at) a').2.1 ++ s.msgs,
              ev := (ceff p c0 (s.node a'.at) a').2.2 ++ s.ev }, by unfold cstep; rw [if_pos h2], ?_, h1'⟩
    rw [← ha]
    refine ⟨fun i => ?_, fun m hm => ?_, fun e he => ?_, fun htl i hw => ?_, fun htl i t hl hw => ?_⟩
    · dsimp only [updF]
      by_cases hi : i = a'.at
      · subst hi; simp only [if_true]; exact h3.node
      · simp only [hi, if_false]; exact h.node i
    · dsimp only at hm ⊢
      rw [List.mem_append] at hm
      rcases hm with hm | hm
      · obtain ⟨m0, hm0, rfl⟩ := List.mem_map.mp hm
        obtain ⟨m', k1, k2⟩ := h3.msg m0 hm0
        exact ⟨m', List.mem_append_left _ k1, k2⟩
      · obtain ⟨m', k1, k2⟩ := h.msg m hm
        exact ⟨m', List.mem_append_right _ k1, k2⟩
    · dsimp only at he ⊢
      rw [List.mem_append] at he
      rcases he with he | he
      · obtain ⟨m', k1, k2⟩ := h3.ev e he
        exact ⟨m', List.mem_append_left _ k1, k2⟩
      · obtain ⟨m', k1, k2⟩ := h.ev e he
        exact ⟨m', List.mem_append_right _ k1, k2⟩
    · dsimp only [updF]
      by_cases hi : i = a'.at
      · subst hi; simp only [if_true]; exact h4 htl hw
      · simp only [hi, if_false]; exact h.idle htl i hw
    · dsimp only at hl
      rw [List.mem_append] at hl
      rcases hl with hl | hl
      · have := (lead_ev hl).1
        subst this
        exact idle_no_lead (h.idle htl _ hw) h2 hl
      · exact h.lead htl i t hl hw
  · cases ha

theorem wsim_steps {s w w' : CSys N (Option D)} (hp : COk p) (hx : NoXfer W) (hs : CReachable p c0 s) (h : WR W s w)
    (ha : WSteps p W c0 w w') : ∃ s', CSteps p c0 s s' ∧ WR W s' w' := by
  induction ha with
  | refl => exact ⟨s, .refl, h⟩
  | tail a _ h2 ih =>
    obtain ⟨s1, k1, k2⟩ := ih
    obtain ⟨a', s2, k3, k4, _⟩ := wsim_step hp hx (csteps_append hs k1) k2 h2
    exact ⟨s2, .tail a' k1 k3, k4⟩

theorem wsim_init : WR W (initC : CSys N (Option D)) initC := by
  refine ⟨fun i => ?_, fun m hm => absurd hm List.not_mem_nil, fun m hm => absurd hm List.not_mem_nil,
    fun _ i _ => ⟨rfl, rfl, rfl, rfl, rfl⟩, fun _ i t h => absurd h List.not_mem_nil⟩
  unfold WNR
  split
  · exact .mk (c := freshSrv) .nil .nil .nil .nil .nil .no .nil
  · rfl

/-- Every execution of a cluster with witnesses is one of a cluster without, up to data on witnesses. -/
theorem wsim_two {w w' : CSys N (Option D)} (hp : COk p) (hx : NoXfer W) (h : WReachable p W c0 w) (h' : WSteps p W c0 w w') :
    ∃ s s', CReachable p c0 s ∧ CSteps p c0 s s' ∧ WR W s w ∧ WR W s' w' := by
  obtain ⟨s, h1, h2⟩ := wsim_steps hp hx .refl wsim_init h
  obtain ⟨s', h3, h4⟩ := wsim_steps hp hx h1 h2 h'
  exact ⟨s, s', h1, h3, h2, h4⟩

end Braft.Cl
