import Verif.Cluster.LogNodeRun
/-
In every reachable state of the joint model every server's list and its LogManager agree: all steps.
-/
set_option linter.unusedVariables false
set_option linter.unusedSimpArgs false
set_option linter.unusedSectionVars false

namespace Braft.Cl
open Braft.Raft
open Braft.MemLog (Ent Consec)
open Braft.LogMgr (Sto Id number)
variable {N D : Type} [DecidableEq N] [DecidableEq D] {p : CParams} {c0 : Conf N}

theorem cstep_some {s s' : CSys N D} {a : CAct N D} (h : cstep p c0 s a = some s') :
    cpre p c0 s a = true ∧ s'.node a.at = (ceff p c0 (s.node a.at) a).1 ∧ (∀ j, j ≠ a.at → s'.node j = s.node j) := by
  unfold cstep at h
  split at h
  · rename_i hp
    cases h
    refine ⟨hp, by simp [updF], fun j hj => by simp [updF, hj]⟩
  · cases h

/-- What happens to the LogManager when an action leaves it alone. -/
theorem joint_keep {c c' : Srv N D} {x : LNode N D} (h : Joint c x) (hs : Same c c') :
    Joint c' ⟨x.lm, x.z ++ pairUp (x.lm.queue.drop x.lm.queue.length) (c'.queue.drop c.queue.length)⟩ := by
  rcases h with h | h
  · exact Or.inl (h.keep hs)
  · exact Or.inr (h.keep hs)

theorem led_nil (c : Srv N D) (ms : List (CMsg N D)) : led ((c, ms, []) : Res N D) = false := rfl

theorem led_follow (i : N) (c c' : Srv N D) (t : Nat) (srv : N) (ok : Bool) (ms : List (CMsg N D)) :
    led ((c', ms, (sCheckStepDown i c t srv ok).2) : Res N D) = false := by
  have : (sCheckStepDown i c t srv ok).2 = [] ∨ ∃ a b d, (sCheckStepDown i c t srv ok).2 = [.follow a b d] := by
    unfold sCheckStepDown
    dsimp only
    generalize (if c.term < t ∨ c.state ≠ St.follower ∨ c.leaderId = none then sStepDown c t ok else c) = c1
    by_cases h : c1.leaderId = none
    · rw [if_pos h]; exact Or.inr ⟨_, _, _, rfl⟩
    · rw [if_neg h]; exact Or.inl rfl
  rcases this with h | ⟨a, b, d, h⟩ <;> unfold led <;> rw [h] <;> rfl

theorem led_voteReqA (i : N) (c : Srv N D) (t : Nat) (cand : N) (claim : Nat × Nat) : led (sVoteReqA i c t cand claim) = false := by
  unfold sVoteReqA; split <;> rfl

theorem led_voteReqB (i : N) (c : Srv N D) (f : VFrame N) (free ok g : Bool) : led (sVoteReqB i c f free ok g) = false := by
  unfold sVoteReqB
  dsimp only
  by_cases h1 : f.savedTerm ≠ c.term
  · rw [if_pos h1]; rfl
  · rw [if_neg h1]
    by_cases h2 : ¬ free = true
    · rw [if_pos h2]; rfl
    · rw [if_neg h2]; rfl

theorem led_install (i : N) (c : Srv N D) (t : Nat) (srv : N) (K : Log N D) (ok : Bool) : led (sInstall i c t srv K ok) = false := by
  unfold sInstall
  dsimp only
  by_cases h1 : t < c.term
  · rw [if_pos h1]; rfl
  rw [if_neg h1]
  by_cases h2 : (sCheckStepDown i c t srv ok).1.leaderId ≠ some srv
  · rw [if_pos h2]; exact led_follow ..
  rw [if_neg h2]
  split <;> exact led_follow ..

theorem led_replRead (i : N) (c : Srv N D) (f : RFrame N) (cnt : Nat) : led (sReplRead i c f cnt) = false := by
  unfold sReplRead; split <;> rfl

/-- The part of `lmEff` for actions that do not call LogManager. -/
theorem plain {c : Srv N D} {x : LNode N D} {a : CAct N D} (cid : Nat) (h : Joint c x)
    (hr : restarts p a.at c a = false) (hl : led (ceff p c0 c a) = false) (hs : Same c (ceff p c0 c a).1)
    (hm : ∀ m : LM N D, lmEff p c0 c m cid a = if restarts p a.at c a then bootLm m.store c.psnap
      else if led (ceff p c0 c a) then m.appendLeader [((c.term : Int), .conf (confOf c0 c.log))] cid else m) :
    Joint (ceff p c0 c a).1 ⟨lmEff p c0 c x.lm cid a, zEff p c0 c x cid a⟩ := by
  have he : lmEff p c0 c x.lm cid a = x.lm := by rw [hm, hr, hl]; rfl
  unfold zEff
  rw [hr, he]
  exact joint_keep h hs

theorem replAck_same (c : Srv N D) (f : RFrame N) : Same c (sReplAck c f) := by
  unfold sReplAck; split <;> exact ⟨rfl, rfl, rfl, rfl, rfl⟩

theorem replRead_same (i : N) (c : Srv N D) (f : RFrame N) (cnt : Nat) : Same c (sReplRead i c f cnt).1 := by
  unfold sReplRead; split <;> exact ⟨rfl, rfl, rfl, rfl, rfl⟩

theorem voteReqA_same (i : N) (c : Srv N D) (t : Nat) (cand : N) (claim : Nat × Nat) : Same c (sVoteReqA i c t cand claim).1 := by
  unfold sVoteReqA; split <;> exact ⟨rfl, rfl, rfl, rfl, rfl⟩

/-- The part of `lmEff` for elections. -/
theorem elected {c : Srv N D} {x : LNode N D} {a : CAct N D} (cid : Nat) (h : Live c x) (f : SF c) (f' : SF (ceff p c0 c a).1)
    (o : Out c0 c (ceff p c0 c a) (aborts p a.at c a)) (hr : restarts p a.at c a = aborts p a.at c a)
    (hm : ∀ m : LM N D, lmEff p c0 c m cid a = if restarts p a.at c a then bootLm m.store c.psnap
      else if led (ceff p c0 c a) then m.appendLeader [((c.term : Int), .conf (confOf c0 c.log))] cid else m) :
    Joint (ceff p c0 c a).1 ⟨lmEff p c0 c x.lm cid a, zEff p c0 c x cid a⟩ := by
  obtain ⟨h1, h2⟩ := h.elects f o f' cid
  unfold zEff
  rw [hm, hr]
  cases hab : aborts p a.at c a with
  | true => exact Or.inl (h1 hab)
  | false => exact Or.inl (h2 hab)

theorem srv_joint (hp : COk p) {s s' : CSys N D} {x : LNode N D} {a : CAct N D} (cid : Nat) (hs : CReachable p c0 s)
    (h : Joint (s.node a.at) x) (hg : jguard x.lm a = true) (hst : cstep p c0 s a = some s') :
    Joint (s'.node a.at) ⟨lmEff p c0 (s.node a.at) x.lm cid a, zEff p c0 (s.node a.at) x cid a⟩ := by
  obtain ⟨hpre, hnode, hoth⟩ := cstep_some hst
  have f := (facts_reach hp hs).1 a.at
  have mf := (facts_reach hp hs).2
  have f' := (facts_reach hp (CSteps.tail a hs hst)).1 a.at
  rw [hnode] at f' ⊢
  -- a node with an error does nothing that needs the log
  have hlive : noLog a = false → Live (s.node a.at) x := by
    intro hn
    rcases h with h | h
    · exact h
    · unfold jguard at hg
      rw [h.err, hn] at hg
      cases hg
  cases a with
  | elect i => exact plain cid h rfl rfl (electA_same ..) (fun _ => rfl)
  | timeoutNow i t st ok => exact plain cid h rfl rfl (timeoutNow_same ..) (fun _ => rfl)
  | electB i f0 ok free => exact elected cid (hlive rfl) f f' (electB_out i _ f0 ok free) rfl (fun _ => rfl)
  | electDie i f0 =>
    exact Or.inl ((hlive rfl).restart f (Same.rfl' _) rfl)
  | timer i v free => exact elected cid (hlive rfl) f f' (timer_out i _ v free) rfl (fun _ => rfl)
  | voteRes i r g rj d rt pt ok => exact elected cid (hlive rfl) f f' (voteRes_out i _ r g rj d rt pt ok) rfl (fun _ => rfl)
  | voteReq i t cand claim dis => exact plain cid h rfl (led_voteReqA ..) (voteReqA_same ..) (fun _ => rfl)
  | voteReqB i f0 free ok g => exact plain cid h rfl (led_voteReqB ..) (voteReqB_same ..) (fun _ => rfl)
  | stepDown i t ok => exact plain cid h rfl rfl (stepDown_same ..) (fun _ => rfl)
  | transfer i => exact plain cid h rfl rfl ⟨rfl, rfl, rfl, rfl, rfl⟩ (fun _ => rfl)
  | transferTimeout i => exact plain cid h rfl rfl ⟨rfl, rfl, rfl, rfl, rfl⟩ (fun _ => rfl)
  | apply i ds =>
    have hl := (hlive rfl).ownEntries f (confOf c0 (s.node i).log) (ds.map (fun d => ⟨(s.node i).term, .data d⟩)) f' cid
    rw [← vals_data] at hl
    exact Or.inl hl
  | changeConf i cf => exact Or.inl ((hlive rfl).ownEntries f cf [⟨(s.node i).term, .conf cf⟩] f' cid)
  | replSend i to prev => exact plain cid h rfl rfl ⟨rfl, rfl, rfl, rfl, rfl⟩ (fun _ => rfl)
  | replRead i f0 cnt => exact plain cid h rfl (led_replRead ..) (replRead_same ..) (fun _ => rfl)
  | replRes i who first upTo n => exact plain cid h rfl rfl ⟨rfl, rfl, rfl, rfl, rfl⟩ (fun _ => rfl)
  | replAck i f0 => exact plain cid h rfl rfl (replAck_same ..) (fun _ => rfl)
  | append i t srv prev pt es cm ok gone =>
    simp only [cpre, Bool.and_eq_true, decide_eq_true_eq] at hpre
    obtain ⟨m1, m2, m3⟩ := mf _ _ _ _ _ _ _ hpre.1
    unfold jguard at hg
    simp only [Bool.and_eq_true, decide_eq_true_eq] at hg
    exact Or.inl ((hlive rfl).appendReq f i t srv prev pt es cm ok gone cid hg.2.1 hg.2.2 m1 m2 m3 f')
  | sendIS i to => exact plain cid h rfl rfl (Same.rfl' _) (fun _ => rfl)
  | install i t srv K ok => exact plain cid h rfl (led_install ..) (install_same ..) (fun _ => rfl)
  | disk i =>
    unfold jguard at hg
    rw [Bool.and_false] at hg
    cases hg
  | fsm i =>
    simp only [cpre, decide_eq_true_eq] at hpre
    have hcl := f.cl
    have hl := (hlive rfl).fsm f (c' := (sApply i (s.node i)).1) (by show (s.node i).applied < (s.node i).log.length; exact Nat.lt_of_lt_of_le hpre hcl) rfl rfl rfl rfl rfl
    have hq : (x.lm.setApplied ⟨(s.node i).applied + 1, x.lm.getTerm ((s.node i).applied + 1)⟩).queue = x.lm.queue := by
      unfold LogMgr.State.setApplied
      split <;> rfl
    have hz : zEff p c0 (s.node i) x cid (.fsm i) = x.z := by
      unfold zEff
      show x.z ++ pairUp ((x.lm.setApplied ⟨(s.node i).applied + 1, x.lm.getTerm ((s.node i).applied + 1)⟩).queue.drop x.lm.queue.length) ((s.node i).queue.drop (s.node i).queue.length) = x.z
      rw [hq, List.drop_length, List.drop_length, pairUp_nil_nil, List.append_nil]
    show Joint (sApply i (s.node i)).1 ⟨_, zEff p c0 (s.node i) x cid (.fsm i)⟩
    rw [hz]
    exact Or.inl hl
  | saveSnap i k =>
    simp only [cpre, Bool.and_eq_true, decide_eq_true_eq] at hpre
    exact Or.inl ((hlive rfl).save f k hpre.1.1.2 hpre.1.2 rfl rfl rfl rfl rfl)
  | copied i => exact plain cid h rfl rfl ⟨rfl, rfl, rfl, rfl, rfl⟩ (fun _ => rfl)
  | loaded i =>
    simp only [cpre, decide_eq_true_eq] at hpre
    have f : SF (s.node i) := f
    have hl : Live (s.node i) x := hlive rfl
    have hpre : (s.node i).dl = some (s.node i).psnap := hpre
    have hid : (idOf (s.node i).psnap).lt x.lm.applied =
        !idLe (termAt (s.node i).log (s.node i).applied, (s.node i).applied) (lastId (s.node i).psnap) := idLe_iff hl.app
    have hsl : (s.node i).snap.length < (s.node i).psnap.length := (f.dl _ hpre).1
    show Joint (sLoaded (s.node i)) ⟨if (idOf (s.node i).psnap).lt x.lm.applied then x.lm else x.lm.setSnapshot (idOf (s.node i).psnap),
      x.z ++ pairUp ((if (idOf (s.node i).psnap).lt x.lm.applied then x.lm else x.lm.setSnapshot (idOf (s.node i).psnap)).queue.drop x.lm.queue.length)
        ((sLoaded (s.node i)).queue.drop (s.node i).queue.length)⟩
    rw [hid]
    by_cases hle : idLe (termAt (s.node i).log (s.node i).applied, (s.node i).applied) (lastId (s.node i).psnap) = true
    · have hce2 : sLoaded (s.node i) = { s.node i with dl := none, applied := (s.node i).psnap.length, sm := (s.node i).psnap, snap := (s.node i).psnap, log := snapMerge (s.node i).psnap (s.node i).log, queue := (s.node i).queue ++ [.snap (s.node i).psnap] } := by
        unfold sLoaded
        dsimp only
        rw [if_pos hle, if_pos hsl]
      rw [hle]
      simp only [Bool.not_true, Bool.false_eq_true, if_false]
      rw [hce2]
      refine Or.inl (hl.loaded f (s.node i).psnap hpre rfl ?_ rfl rfl rfl rfl rfl)
      rw [hid, hle]
      rfl
    · have hce2 : sLoaded (s.node i) = { s.node i with dl := none } := by
        unfold sLoaded
        dsimp only
        rw [if_neg hle]
      rw [Bool.not_eq_true] at hle
      rw [hle]
      simp only [Bool.not_false, if_true]
      rw [hce2]
      exact Or.inl (hl.keep ⟨rfl, rfl, rfl, rfl, rfl⟩)
  | dlDrop i => exact plain cid h rfl rfl ⟨rfl, rfl, rfl, rfl, rfl⟩ (fun _ => rfl)
  | crash i => exact Or.inl ((hlive rfl).restart f (Same.rfl' _) rfl)

/-- Both sides of a joint state agree everywhere. -/
def JInv (s : JSys N D) : Prop := ∀ i, Joint (s.cl.node i) (s.ln i)

theorem jinv_upd {s : JSys N D} {cl : CSys N D} {i : N} {x : LNode N D} (h : JInv s) (ho : ∀ j, j ≠ i → cl.node j = s.cl.node j)
    (hi : Joint (cl.node i) x) : JInv (s.upd cl i x) := by
  intro j
  show Joint (cl.node j) (updF s.ln i x j)
  by_cases hj : j = i
  · subst hj; simp only [updF, if_true]; exact hi
  · simp only [updF, hj, if_false]; rw [ho j hj]; exact h j

theorem joint_live {c : Srv N D} {x : LNode N D} (h : Joint c x) (he : x.lm.err = false) : Live c x := by
  rcases h with h | h
  · exact h
  · rw [h.err] at he; cases he

theorem joint_dead {c : Srv N D} {x : LNode N D} (h : Joint c x) (he : x.lm.err = true) : Dead c x := by
  rcases h with h | h
  · rw [h.err] at he; cases he
  · exact h

theorem Live.same_lm {c : Srv N D} {x : LNode N D} (h : Live c x) {m' : LM N D} (hi : ∃ L, LogMgr.Inv m' L) (h0 : m'.err = x.lm.err)
    (h1 : m'.first = x.lm.first) (h2 : m'.queue = x.lm.queue) (h3 : m'.store = x.lm.store) (h4 : m'.snap = x.lm.snap)
    (h5 : m'.virt = x.lm.virt) (h6 : m'.applied = x.lm.applied) : Live c ⟨m', x.z⟩ :=
  ⟨h0.trans h.err, hi, h.cq, h2.trans h.sq, by show StoR c.disk m'.store; rw [h3]; exact h.st,
    by show ZOk c.disk m'.store _; rw [h3]; exact h.zok, h4.trans h.snap, h6.trans h.app,
    by show ∀ n : Nat, m'.virt.index = n → _; rw [h5]; exact h.virt, by show m'.first - 1 ≤ _; rw [h1]; exact h.fst,
    by show ZBase _ _ _ m'.store _; rw [h3]; exact h.bs⟩

theorem setDisk_same (m : LM N D) (i : Id) : (m.setDisk i).err = m.err ∧ (m.setDisk i).first = m.first ∧ (m.setDisk i).queue = m.queue ∧
    (m.setDisk i).store = m.store ∧ (m.setDisk i).snap = m.snap ∧ (m.setDisk i).virt = m.virt ∧ (m.setDisk i).applied = m.applied := by
  unfold LogMgr.State.setDisk; split <;> exact ⟨rfl, rfl, rfl, rfl, rfl, rfl, rfl⟩

theorem clear_same (m : LM N D) (i : Id) : (m.clear i).err = m.err ∧ (m.clear i).first = m.first ∧ (m.clear i).queue = m.queue ∧
    (m.clear i).store = m.store ∧ (m.clear i).snap = m.snap ∧ (m.clear i).virt = m.virt ∧ (m.clear i).applied = m.applied := by
  unfold LogMgr.State.clear
  split
  · exact ⟨rfl, rfl, rfl, rfl, rfl, rfl, rfl⟩
  · split <;> exact ⟨rfl, rfl, rfl, rfl, rfl, rfl, rfl⟩

theorem safeClear_of {m : LM N D} {c : Id} (h : safeB m c = true) : LogMgr.SafeClear m c := by
  intro e rest hm hlt es cid hj y hy
  unfold safeB at h
  rw [hm] at h
  dsimp only at h
  rw [hlt, Bool.false_or] at h
  have := List.all_eq_true.mp h _ hj
  dsimp only at this
  have := List.all_eq_true.mp this y hy
  simpa using this

theorem z_split (x : LNode N D) (k : Nat) : x.z = x.z.take k ++ x.z.drop k := (List.take_append_drop k x.z).symm

theorem lmJobs_cons_some (j : LJob N D) (js : List (Job N D)) (z : List (Pair N D)) : lmJobs ((some j, js) :: z) = j :: lmJobs z := rfl

theorem jstep_inv (hp : COk p) {s s' : JSys N D} {a : JAct N D} (hr : CReachable p c0 s.cl) (h : JInv s)
    (hst : jstep p c0 s a = some s') : CReachable p c0 s'.cl ∧ JInv s' := by
  have facts := fun i => (facts_reach hp hr).1 i
  cases a with
  | srv a cid =>
    simp only [jstep] at hst
    split at hst
    · rename_i hg
      cases hc : cstep p c0 s.cl a with
      | none => rw [hc] at hst; cases hst
      | some cl =>
        rw [hc] at hst
        cases hst
        refine ⟨CSteps.tail a hr hc, jinv_upd h (cstep_some hc).2.2 ?_⟩
        exact srv_joint hp cid hr (h a.at) hg hc
    · cases hst
  | ask i cid =>
    simp only [jstep] at hst
    split at hst
    · rename_i hg
      cases hst
      rw [Bool.and_eq_true, Bool.not_eq_true'] at hg
      have hl := joint_live (h i) hg.1
      obtain ⟨n, v⟩ := hl.view (facts i)
      refine ⟨hr, jinv_upd h (fun _ _ => rfl) (Or.inl ?_)⟩
      have hi : LogMgr.Inv ((s.ln i).lm.askLastId cid) (ents n ((s.cl.node i).log.drop n)) := by
        have hc := v.inv.toCore
        refine v.inv.newTail (s' := (s.ln i).lm.askLastId cid) ?_ rfl rfl rfl rfl v.inv.appLast (fun e he _ => he)
        refine ⟨hc.pos, hc.idx, hc.len, hc.suf, hc.sto, ?_, ?_, ?_, hc.termPos⟩
        · intro es c hm
          rcases List.mem_append.mp hm with hm | hm
          · exact hc.jobs es c hm
          · simp at hm
        · exact LogMgr.runAll_snoc _ _ _ _ hc.pend
        · intro es c hm
          rcases List.mem_append.mp hm with hm | hm
          · exact hc.npend es c hm
          · simp at hm
      refine hl.push (facts i) v [(some (.lastId cid (s.ln i).lm.lastLogId), [])] hi hl.err rfl rfl rfl ?_ ?_ ?_ rfl (Nat.le_refl _) hl.snap hl.app hl.virt hl.fst
      · simp [flat]
      · exact ⟨.ask _ _, fun _ _ => trivial⟩
      · exact ⟨Or.inr rfl, fun _ _ => Or.inr rfl⟩
    · cases hst
  | buffered i =>
    simp only [jstep] at hst
    split at hst
    · cases hst
    · rename_i hg
      cases hst
      have hl := joint_live (h i) (by simpa using hg)
      exact ⟨hr, jinv_upd h (fun _ _ => rfl) (Or.inl (hl.buffered (facts i)))⟩
  | clear i c =>
    simp only [jstep] at hst
    split at hst
    · rename_i hg
      cases hst
      rw [Bool.and_eq_true, Bool.and_eq_true, Bool.not_eq_true'] at hg
      have hl := joint_live (h i) hg.1.1
      obtain ⟨L, hi⟩ := hl.inv
      obtain ⟨e0, e1, e2, e3, e4, e5, e6⟩ := clear_same (s.ln i).lm c
      exact ⟨hr, jinv_upd h (fun _ _ => rfl) (Or.inl (hl.same_lm ⟨L, hi.clear c (safeClear_of hg.2)⟩ e0 e1 e2 e3 e4 e5 e6))⟩
    · cases hst
  | begin i =>
    simp only [jstep] at hst
    split at hst
    · rename_i hg
      cases hst
      rw [Bool.and_eq_true, Bool.not_eq_true'] at hg
      have hl := joint_live (h i) hg.1
      obtain ⟨L, hi⟩ := hl.inv
      exact ⟨hr, jinv_upd h (fun _ _ => rfl) (Or.inl (hl.same_lm ⟨L, hi.congr rfl rfl rfl rfl rfl rfl rfl rfl⟩ rfl rfl rfl rfl rfl rfl rfl))⟩
    · cases hst
  | fin i =>
    simp only [jstep] at hst
    split at hst
    · rename_i l hl'
      split at hst
      · cases hst
      · rename_i hg
        cases hst
        have hl := joint_live (h i) (by simpa using hg)
        obtain ⟨L, hi⟩ := hl.inv
        obtain ⟨e0, e1, e2, e3, e4, e5, e6⟩ := setDisk_same (s.ln i).lm l
        exact ⟨hr, jinv_upd h (fun _ _ => rfl) (Or.inl (hl.same_lm
          ⟨L, (hi.setDisk l).congr rfl rfl rfl rfl rfl rfl rfl rfl⟩ e0 e1 e2 e3 e4 e5 e6))⟩
    · cases hst
  | skip i =>
    simp only [jstep] at hst
    split at hst
    · rename_i js z hz
      split at hst
      · cases hst
      · rename_i hg
        have hl := joint_live (h i) (by simpa using hg)
        have hcq := hl.cq
        rw [hz, flat_cons] at hcq
        obtain ⟨cl, h1, h2, h3, h4, _⟩ := diskN_ok (p := p) (c0 := c0) i js.length s.cl (by rw [hcq]; simp)
        rw [h1] at hst
        cases hst
        refine ⟨CSteps.trans' hr h2, jinv_upd h h4 (Or.inl ?_)⟩
        refine hl.pop (z1 := [(none, js)]) (z2 := z) hz (by simpa [flat] using h3) hl.inv hl.err rfl ?_ rfl rfl rfl rfl
        have := hl.sq
        rw [hz] at this
        exact this
    · cases hst
  | flush i k =>
    simp only [jstep] at hst
    split at hst
    · rename_i l hl'
      split at hst
      · rename_i hg
        rw [Bool.and_eq_true, Bool.not_eq_true'] at hg
        have hl := joint_live (h i) hg.1
        have hz := z_split (s.ln i) k
        have hcq := hl.cq
        rw [hz, flat_append] at hcq
        obtain ⟨cl, h1, h2, h3, h4, _⟩ := diskN_ok (p := p) (c0 := c0) i (flat ((s.ln i).z.take k)).length s.cl (by rw [hcq]; simp)
        rw [h1] at hst
        cases hst
        refine ⟨CSteps.trans' hr h2, jinv_upd h h4 (Or.inl ?_)⟩
        obtain ⟨L, hi⟩ := hl.inv
        have hq : (s.ln i).lm.queue = lmJobs ((s.ln i).z.take k) ++ lmJobs ((s.ln i).z.drop k) := by
          rw [hl.sq, ← lmJobs_append, ← hz]
        obtain ⟨hi', hs', hrun⟩ := hi.flushOk hl.err hq (allAppends_of hg.2) l
        refine hl.pop hz h3 ⟨L, hi'⟩ ?_ (by rw [hs']; exact hrun) ?_ ?_ ?_ ?_ ?_
        all_goals simp [LogMgr.State.flush, hl.err]
      · cases hst
    · cases hst
  | exec i =>
    simp only [jstep] at hst
    split at hst
    · rename_i l j js z hl' hz
      split at hst
      · rename_i hg
        rw [Bool.and_eq_true, Bool.not_eq_true', Bool.not_eq_true'] at hg
        have hl := joint_live (h i) hg.1
        have hcq := hl.cq
        rw [hz, flat_cons] at hcq
        obtain ⟨cl, h1, h2, h3, h4, _⟩ := diskN_ok (p := p) (c0 := c0) i js.length s.cl (by rw [hcq]; simp)
        rw [h1] at hst
        cases hst
        refine ⟨CSteps.trans' hr h2, jinv_upd h h4 (Or.inl ?_)⟩
        obtain ⟨L, hi⟩ := hl.inv
        have hq : (s.ln i).lm.queue = j :: lmJobs z := by rw [hl.sq, hz]; rfl
        obtain ⟨hi', hrun⟩ := hi.execOk hq l
        refine hl.pop (z1 := [(some j, js)]) (z2 := z) hz (by simpa [flat] using h3) ⟨L, hi'⟩ ?_ ?_ ?_ ?_ ?_ ?_ ?_
        · unfold LogMgr.State.execOk; cases j <;> exact hl.err
        · show (s.ln i).lm.store.runAll [j] = _
          simp only [Sto.runAll]
          rw [hrun]
        all_goals
          unfold LogMgr.State.execOk
          cases j <;> rfl
      · cases hst
    · cases hst
  | failAppend i k n =>
    simp only [jstep] at hst
    split at hst
    · rename_i l hl'
      split at hst
      · rename_i hg
        cases hst
        rw [Bool.and_eq_true, Bool.and_eq_true, Bool.not_eq_true', decide_eq_true_eq] at hg
        have hl := joint_live (h i) hg.1.1
        refine ⟨hr, jinv_upd h (fun _ _ => rfl) (Or.inr ?_)⟩
        have hz := z_split (s.ln i) k
        have hzz := hl.zok
        rw [hz] at hzz
        obtain ⟨m, hm1, hm2, hm3⟩ := part_appends hzz.split.1 hl.st hg.1.2 n (by omega)
        have hcq := hl.cq
        rw [hz, flat_append] at hcq
        have htk : (s.cl.node i).queue.take m = (flat ((s.ln i).z.take k)).take m := by
          rw [hcq, List.take_append_of_le_length hm1]
        have hst' : ((s.ln i).lm.flush (lmJobs ((s.ln i).z.take k)) (lmJobs ((s.ln i).z.drop k)) l n false).store =
            ⟨(s.ln i).lm.store.first, (s.ln i).lm.store.ents ++ (LogMgr.jobEnts (lmJobs ((s.ln i).z.take k))).take n⟩ := by
          simp [LogMgr.State.flush, hl.err]
        have hfl := hl.first_le
        have hfst := hl.fst
        refine ⟨?_, ⟨m, by rw [hcq, List.length_append]; omega, ?_, ?_⟩, ?_⟩
        · simp only [LogMgr.State.flush, hl.err, Bool.false_eq_true, if_false, Bool.or_false, decide_eq_true_eq]
          omega
        · rw [htk]
          show StoR _ (LogMgr.State.flush _ _ _ _ _ _).store
          rw [hst']
          exact hm3
        · rw [htk]
          show Base _ _ _ (LogMgr.State.flush _ _ _ _ _ _).store
          rw [hst']
          rcases hl.bs.head with hb | hb
          · exact Or.inl hb
          · right
            obtain ⟨q, hq⟩ := hl.st
            have hqf := hq.first
            have hql := hq.le
            obtain ⟨w, hw⟩ := hm2
            show (drainJobs _ _).take ((s.ln i).lm.store.first - 1).toNat = _
            rw [← hw, List.take_append_of_le_length (by omega)]
            exact hb
        · show (LogMgr.State.flush _ _ _ _ _ _).store.first - 1 ≤ _
          rw [hst']
          show (s.ln i).lm.store.first - 1 ≤ _
          omega
      · cases hst
    · cases hst
  | failJob i n =>
    simp only [jstep] at hst
    split at hst
    · rename_i l j js z hl' hz
      split at hst
      · rename_i hg
        cases hst
        rw [Bool.and_eq_true, Bool.not_eq_true', Bool.not_eq_true'] at hg
        have hl := joint_live (h i) hg.1
        refine ⟨hr, jinv_upd h (fun _ _ => rfl) (Or.inr ?_)⟩
        have hzz := hl.zok
        have hbb := hl.bs
        rw [hz] at hzz hbb
        have hfst := hl.fst
        have hS : ∀ a', (s.ln i).lm.store.run j = some a' → a'.first - 1 ≤ (s.cl.node i).snap.length := by
          intro a' ha'
          obtain ⟨n', v⟩ := hl.view (facts i)
          have hfin := hl.fin v
          rw [hz, lmJobs_cons_some] at hfin
          simp only [Sto.runAll] at hfin
          rw [ha'] at hfin
          dsimp only at hfin
          obtain ⟨a1, g1, g2, g3⟩ := hzz.1.run hl.st
          rw [show runB (s.ln i).lm.store (some j, js).1 = (s.ln i).lm.store.run j from rfl, ha'] at g1
          cases g1
          obtain ⟨a2, k1, k2, k3⟩ := (hzz.2 a' ha').run g2
          rw [hfin] at k1
          cases k1
          have : a'.first ≤ (s.ln i).lm.first := k3
          omega
        obtain ⟨m, hm1, hm2, hm3, hm4⟩ := part_job hzz hl.st hbb hg.2 hS n
        have hcq := hl.cq
        rw [hz, flat_cons] at hcq
        have htk : (s.cl.node i).queue.take m = js.take m := by
          rw [hcq, List.take_append_of_le_length hm1]
        refine ⟨rfl, ⟨m, by rw [hcq, List.length_append]; exact Nat.le_trans hm1 (Nat.le_add_right _ _), ?_, ?_⟩, hm4⟩
        · rw [htk]; exact hm2
        · rw [htk]; exact hm3
      · cases hst
    · cases hst
  | die i n =>
    simp only [jstep] at hst
    split at hst
    · rename_i hg
      rw [Bool.and_eq_true, Bool.and_eq_true, Bool.and_eq_true, decide_eq_true_eq] at hg
      obtain ⟨⟨⟨he, hn⟩, hsto⟩, hbase⟩ := hg
      have hd := joint_dead (h i) he
      obtain ⟨cl, h1, h2, h3, h4, _⟩ := diskN_ok (p := p) (c0 := c0) i n s.cl hn
      rw [h1] at hst
      have hr1 := CSteps.trans' hr h2
      have f1 := (facts_reach hp hr1).1 i
      have hcr : cstep p c0 cl (.crash i) = some { node := updF cl.node i (restartSrv (cl.node i)), msgs := cl.msgs, ev := cl.ev } := rfl
      have hst' : (cstep p c0 cl (.crash i)).map (fun cl => s.upd cl i ⟨bootLm (s.ln i).lm.store (s.cl.node i).psnap,
          pairUp (bootLm (s.ln i).lm.store (s.cl.node i).psnap).queue (cl.node i).queue⟩) = some s' := hst
      rw [hcr] at hst'
      cases hst'
      refine ⟨CSteps.tail _ hr1 hcr, jinv_upd h ?_ (Or.inl ?_)⟩
      · intro j hj
        show updF cl.node i _ j = _
        simp only [updF, hj, if_false]
        exact h4 j hj
      · show Live (updF cl.node i (restartSrv (cl.node i)) i) ⟨_, pairUp _ (updF cl.node i (restartSrv (cl.node i)) i).queue⟩
        simp only [updF, if_true]
        obtain ⟨q, hq⟩ := stoOfB_iff.mp hsto
        rw [← h3.disk] at hq
        have hqf := hq.first
        have hfst := hd.fst
        have hps := h3.psnap
        have hsp := (facts i).sp.length_le
        refine boot_live (P := (s.cl.node i).psnap) hq f1.dpos (by rw [← hps]; exact f1.ppos) (by omega) ?_ ?_ rfl ?_ ?_ ?_
        · unfold baseB at hbase
          rw [Bool.or_eq_true, decide_eq_true_eq, decide_eq_true_eq] at hbase
          rcases hbase with hb | hb
          · left; omega
          · by_cases hlt : q < (s.cl.node i).psnap.length
            · exact Or.inl hlt
            · right
              rw [← h3.disk, show ((s.ln i).lm.store.first - 1).toNat = q by omega] at hb
              rw [hb]
              obtain ⟨r1, hr1⟩ := (facts i).sn
              obtain ⟨r2, hr2⟩ := (facts i).sp
              rw [← hr1, ← hr2, List.take_append_of_le_length (by omega), List.take_append_of_le_length (by omega)]
        · show snapMerge (cl.node i).psnap _ = _; rw [hps]
        · show loadJobs (cl.node i).psnap = _; rw [hps]
        · show (cl.node i).psnap = _; rw [hps]
        · show (cl.node i).psnap.length = _; rw [hps]
    · cases hst

theorem init_jinv : JInv (initJ : JSys N D) := by
  intro i
  left
  have hok : LogMgr.StoOk (⟨1, []⟩ : Sto (Payload N D)) := ⟨Int.le_refl _, trivial⟩
  refine ⟨rfl, ⟨_, LogMgr.init_inv hok (by simp) rfl⟩, rfl, rfl, ⟨0, rfl, Nat.le_refl _, rfl⟩, trivial, rfl, rfl, ?_, ?_, Or.inr rfl⟩
  · intro n hn h0
    have : (0 : Int) = n := hn
    omega
  · show (1 : Int) - 1 ≤ ((0 : Nat) : Int); omega

theorem jreach (hp : COk p) {s : JSys N D} (h : JReachable p c0 s) : CReachable p c0 s.cl ∧ JInv s := by
  induction h with
  | refl => exact ⟨.refl, init_jinv⟩
  | tail a _ hst ih => exact jstep_inv hp ih.1 ih.2 hst

/-- A node that failed can always be started again. -/
theorem die_enabled (hp : COk p) {s : JSys N D} (h : JReachable p c0 s) (i : N) (he : (s.ln i).lm.err = true) :
    ∃ n s', jstep p c0 s (.die i n) = some s' := by
  obtain ⟨hr, hj⟩ := jreach hp h
  obtain ⟨n, hn, hs, hb⟩ := (joint_dead (hj i) he).st
  obtain ⟨cl, h1, h2, h3, h4, _⟩ := diskN_ok (p := p) (c0 := c0) i n s.cl hn
  have hcr : cstep p c0 cl (.crash i) = some { node := updF cl.node i (restartSrv (cl.node i)), msgs := cl.msgs, ev := cl.ev } := rfl
  refine ⟨n, ?_⟩
  simp only [jstep]
  rw [if_pos, h1]
  · exact ⟨_, rfl⟩
  · rw [Bool.and_eq_true, Bool.and_eq_true, Bool.and_eq_true, decide_eq_true_eq]
    refine ⟨⟨⟨he, hn⟩, stoOfB_iff.mpr hs⟩, ?_⟩
    unfold baseB
    rw [Bool.or_eq_true, decide_eq_true_eq, decide_eq_true_eq]
    exact hb

end Braft.Cl
