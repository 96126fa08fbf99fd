import Verif.Cluster.PipeNodeInv
/-
The two sides of a server in Cluster/PipeNode.lean agree after every action of the server.
-/
set_option linter.unusedVariables false
set_option linter.unusedSimpArgs false
set_option linter.unusedSectionVars false

namespace Braft.Cl
open Braft.Raft
variable {N D C : Type} [DecidableEq N] [DecidableEq D] {c0 : Conf N} {p : CParams}

theorem termAt_last {l K : Log N D} (h : l.take K.length = K) (hne : K ≠ []) : termAt l K.length = lastTerm K := by
  have hl : K.length ≠ 0 := by intro h0; exact hne (List.length_eq_zero_iff.mp h0)
  have : termAt l K.length = termAt K K.length := termAt_take (by rw [h, List.take_length])
  rw [this]
  unfold termAt lastTerm
  rw [if_neg hl, List.getLast?_eq_getElem?]

/-- A restart. -/
theorem boot_both {c : Srv N D} (c1 : Srv N D) (hc : c = restartSrv c1) (hb : BF c) (f : SF c) :
    Both c0 c (runOps (Pipe.State.init c0.peers : PN N D C) (bootOps c0 c ++ [syncOp c0 (Pipe.State.init c0.peers) c])) := by
  rw [runOps_append]
  refine Half.sync ?_ hb _
  have hbb : c.bb = {} := by rw [hc]; rfl
  have hsm : c.sm = c.psnap := by rw [hc]; rfl
  have hap : c.applied = c.psnap.length := by rw [hc]; rfl
  let cA : Srv N D := { c with applied := 0 }
  have hA : Half c0 cA (Pipe.step (Pipe.State.init c0.peers : PN N D C) (.follow (fents c.log))) := by
    refine ⟨⟨rfl, ?_, rfl, rfl, fun _ => rfl⟩, .step _ .init ⟨rfl, Nat.zero_le _, Nat.zero_le _, rfl⟩⟩
    show BBEq _ c.bb
    rw [hbb]
    exact ⟨rfl, rfl, rfl⟩
  unfold bootOps
  rw [runOps_append]
  rw [show runOps (Pipe.State.init c0.peers : PN N D C) [.follow (fents c.log)] = Pipe.step (Pipe.State.init c0.peers : PN N D C) (.follow (fents c.log)) from rfl]
  have hsl := f.sm
  rw [hsm] at hsl
  by_cases hp : c.psnap = []
  · rw [if_pos (by rw [hp]; rfl)]
    refine hA.congr rfl ?_ rfl
    rw [hap, hp]; rfl
  · rw [if_neg (by rw [List.isEmpty_iff]; exact hp)]
    have h1 := f.ppos hp
    refine hA.load c.psnap _ _ _ rfl rfl (by show c.bb.pending = 0; rw [hbb]) rfl rfl ?_ ?_ ?_
    · rw [← hap]; exact f.ap
    · intro _
      refine ⟨hap, termAt_last ?_ hp⟩
      rw [← hap]
      exact hsl.symm
    · intro hi
      exfalso
      have : idLe (0, 0) (lastId c.psnap) = false := hi
      unfold idLe lastId at this
      dsimp only at this
      rw [if_neg (by omega), decide_eq_true (by omega)] at this
      cases this

theorem downOps_nil {c c' : Srv N D} (h : c.state.leads = false ∨ c'.state.leads = true) : (downOps c c' : List (POp N D C)) = [] := by
  unfold downOps
  rcases h with h | h <;> rw [h]
  · rfl
  · rw [Bool.not_true, Bool.and_false]; rfl

/-- A handler that at most steps down. -/
theorem same_both {c c' : Srv N D} {x : PN N D C} (h : Both c0 c x) (hs : BSame c c') (hb : BF c') :
    Both c0 c' (runOps x (downOps c c' ++ ([] ++ [syncOp c0 x c']))) := by
  rw [runOps_append]
  exact (h.half.down hs).sync hb x

theorem same_both' {c c' : Srv N D} {x : PN N D C} {ops : List (POp N D C)} (ho : ops = []) (h : Both c0 c x) (hs : BSame c c') (hb : BF c') :
    Both c0 c' (runOps x (downOps c c' ++ (ops ++ [syncOp c0 x c']))) := by
  subst ho
  exact same_both h hs hb

/-- become_leader. -/
theorem out_both {c : Srv N D} {r : Res N D} {ab : Bool} {x : PN N D C} (h : Both c0 c x) (cc : C) (hb : BF c) (hb' : BF r.1)
    (ho : BOut c0 c r ab) (hab : ab = false) (hf : led r = true → c.state.leads = false) :
    Both c0 r.1 (runOps x (downOps c r.1 ++ ((if led r then
      [.elect c.term, .confEntry cc (confOf c0 c.log).peers (oldOf (confOf c0 c.log))] else []) ++ [syncOp c0 x r.1]))) := by
  cases ho with
  | same hs hl _ => rw [hl]; exact same_both h hs hb'
  | boot c1 _ ha => rw [ha] at hab; cases hab
  | lead hlog hap hbb hst ht hl _ =>
    rw [hl, if_pos rfl, downOps_nil (Or.inl (hf hl)), List.nil_append, runOps_append]
    exact (h.half.lead cc hb (hf hl) hlog hap hbb).sync hb' x

section Append
variable {s : CSys N D} {s' : CSys N D}

/-- handle_append_entries_request. -/
theorem append_both {c : Srv N D} {x : PN N D C} (h : Both c0 c x) (i : N) (t : Nat) (srv : N) (prev pt : Nat)
    (es : List (Entry N D)) (cm : Nat) (ok gone : Bool) (hb : BF c) (hb' : BF (sAppend i c t srv prev pt es cm ok gone).1)
    (ht : (sAppend i c t srv prev pt es cm ok gone).1.bb.lastCommitted = c.bb.lastCommitted →
      (sAppend i c t srv prev pt es cm ok gone).1.log.take c.bb.lastCommitted = c.log.take c.bb.lastCommitted)
    (hta : (sAppend i c t srv prev pt es cm ok gone).1.log.take c.applied = c.log.take c.applied) :
    Both c0 (sAppend i c t srv prev pt es cm ok gone).1
      (runOps x (downOps c (sAppend i c t srv prev pt es cm ok gone).1 ++
        (aeOps i c t srv prev pt es cm ok gone ++ [syncOp c0 x (sAppend i c t srv prev pt es cm ok gone).1]))) := by
  have hb1 := checkStepDown_b i c t srv ok
  have hfol := checkStepDown_follower i c t srv ok
  unfold sAppend at hb' ht hta ⊢
  unfold aeOps
  by_cases h1 : t < c.term
  · rw [if_pos h1] at hb' ⊢
    rw [if_pos h1]
    exact same_both h (.rfl' c) hb'
  rw [if_neg h1] at hb' ht hta ⊢
  rw [if_neg h1]
  dsimp only at hb' ht hta ⊢
  generalize (sCheckStepDown i c t srv ok).1 = c1 at *
  have hfl : c1.state.leads = false := by rw [hfol]; rfl
  have hH := h.half.down hb1
  have hf1 : c1.bb.pending = 0 ∧ c1.bb.queue = [] := by
    rw [hb1.bb]
    cases hl : c.state.leads with
    | true => rw [hfl]; exact ⟨rfl, rfl⟩
    | false => exact hb.fol hl
  have hlc1 : c1.bb.lastCommitted = c.bb.lastCommitted := by
    rw [hb1.bb]; split <;> rfl
  have hbf1 : BF c1 := by
    refine ⟨fun _ => hf1, fun hl => ?_, fun _ => hfl, ?_, ?_⟩
    · rw [hfl] at hl; cases hl
    · rw [hb1.log, hlc1]; exact hb.cl
    · rw [hb1.log, hb1.applied]; exact hb.ap
  by_cases h2 : c1.leaderId ≠ some srv
  · rw [if_pos h2] at hb' ⊢
    rw [if_pos h2]
    exact same_both h (hb1.trans (stepDown_b ..)) hb'
  rw [if_neg h2] at hb' ht hta ⊢
  rw [if_neg h2]
  by_cases h3 : es ≠ [] ∧ c1.dl.isSome = true
  · rw [if_pos h3] at hb' ⊢
    rw [if_pos h3]
    exact same_both h (hb1.trans (.of rfl rfl rfl rfl)) hb'
  rw [if_neg h3] at hb' ht hta ⊢
  rw [if_neg h3]
  by_cases h4 : (if gone = true then 0 else termAt c1.log prev) ≠ pt
  · rw [if_pos h4] at hb' ⊢
    rw [if_pos h4]
    exact same_both h (hb1.trans (.of rfl rfl rfl rfl)) hb'
  rw [if_neg h4] at hb' ht hta ⊢
  rw [if_neg h4]
  by_cases h5 : es = []
  · rw [if_pos h5] at hb' ⊢
    rw [if_pos h5, runOps_append, runOps_append]
    refine Half.sync ?_ hb' x
    exact hH.setCommitted _ rfl rfl rfl hbf1 hb'
  rw [if_neg h5] at hb' ht hta ⊢
  rw [if_neg h5]
  by_cases h6 : prev + es.length ≤ c1.applied
  · rw [if_pos h6] at hb' ⊢
    rw [if_pos h6, runOps_append, runOps_append]
    refine Half.sync ?_ hb' x
    exact hH.setCommitted _ rfl rfl rfl hbf1 hb'
  rw [if_neg h6] at hb' ht hta ⊢
  rw [if_neg h6, runOps_append, runOps_append]
  refine Half.sync ?_ hb' x
  refine hH.follow rfl rfl hbf1 hb'.cl hb'.ap hfl ?_ ?_
  · rw [hlc1, hb1.log]
    have := ht hlc1
    dsimp only at this ⊢
    rw [← this, hb1.log]
  · rw [hb1.applied, hb1.log]
    dsimp only at hta ⊢
    rw [← hta, hb1.log]

end Append

/-- The disk queue. -/
theorem disk_both {c : Srv N D} {x : PN N D C} (h : Both c0 c x) (i : N) (hb : BF c) (hb' : BF (sDisk i c).1) :
    Both c0 (sDisk i c).1 (runOps x (downOps c (sDisk i c).1 ++ (diskOps i c ++ [syncOp c0 x (sDisk i c).1]))) := by
  unfold sDisk at hb' ⊢
  unfold diskOps
  cases hq : c.queue with
  | nil => rw [hq] at hb'; exact same_both h (.rfl' c) hb'
  | cons j q =>
    rw [hq] at hb'
    dsimp only at hb' ⊢
    cases j with
    | push e => exact same_both h (.of rfl rfl rfl rfl) hb'
    | pop => exact same_both h (.of rfl rfl rfl rfl) hb'
    | snap K => exact same_both h (.of rfl rfl rfl rfl) hb'
    | follower t upTo n cm l =>
      dsimp only at hb' ⊢
      by_cases ht : t ≠ c.term
      · rw [if_pos ht] at hb' ⊢
        rw [if_pos ht]
        exact same_both h (.of rfl rfl rfl rfl) hb'
      · rw [if_neg ht] at hb' ⊢
        have hd : ∀ c' : Srv N D, c'.state = c.state → (downOps c c' : List (POp N D C)) = [] := by
          intro c' h'; unfold downOps; rw [h']; cases c.state.leads <;> rfl
        rw [if_neg ht, hd (sSetCommitted { c with disk := _, queue := q, elects := _ } _) rfl, List.nil_append, runOps_append]
        refine Half.sync ?_ hb' x
        exact h.half.setCommitted _ rfl rfl rfl hb hb'
    | leader first n =>
      dsimp only at hb' ⊢
      have hd : ∀ c' : Srv N D, c'.state = c.state → (downOps c c' : List (POp N D C)) = [] := by
        intro c' h'; unfold downOps; rw [h']; cases c.state.leads <;> rfl
      rw [hd { c with disk := _, queue := q, elects := _, bb := _ } rfl, List.nil_append, runOps_append]
      refine Half.sync ?_ hb' x
      exact h.half.ack first (first + n - 1) i rfl rfl rfl

theorem append_applied (i : N) (c : Srv N D) (t : Nat) (srv : N) (prev pt : Nat) (es : List (Entry N D)) (cm : Nat) (ok gone : Bool) :
    (sAppend i c t srv prev pt es cm ok gone).1.applied = c.applied := by
  have hb1 := (checkStepDown_b i c t srv ok).applied
  unfold sAppend
  by_cases h1 : t < c.term
  · rw [if_pos h1]
  rw [if_neg h1]
  dsimp only
  generalize (sCheckStepDown i c t srv ok).1 = c1 at *
  repeat' split
  all_goals exact hb1

/-- The agreement after an action of a server. -/
theorem srv_both (hp : COk p) {s s' : CSys N D} (h : CReachable p c0 s) {a : CAct N D} (hs : cstep p c0 s a = some s')
    {x : PN N D C} (hj : Both c0 (s.node a.at) x) (cc : C) (h1 : ∀ i ds, a ≠ .apply i ds) (h2 : ∀ i, a ≠ .fsm i) (h3 : ∀ i, a ≠ .loaded i) :
    Both c0 (s'.node a.at) (pipeEff p c0 (s.node a.at) x a cc) := by
  obtain ⟨hpre, hn, _⟩ := cstep_some hs
  have h' : CReachable p c0 s' := .tail a h hs
  have hb := bf_reach hp h a.at
  have hb' := bf_reach hp h' a.at
  have f' := (facts_reach hp h').1 a.at
  have hct := @committed_take N D _ _ c0 p hp s s' h (.tail a .refl hs) a.at a.at
  rw [hn] at hb' f' hct ⊢
  unfold pipeEff
  dsimp only
  by_cases hr : restarts p a.at (s.node a.at) a = true
  · rw [if_pos hr]
    have : ∃ c1, (ceff p c0 (s.node a.at) a).1 = restartSrv c1 := by
      cases a with
      | crash i => exact ⟨_, rfl⟩
      | electDie i f => exact ⟨_, rfl⟩
      | electB i f ok free =>
        cases electB_b (p := p) (c0 := c0) i (s.node i) f ok free with
        | boot c1 h _ => exact ⟨c1, h⟩
        | same _ _ h => have hr : aborts p i (s.node i) (.electB i f ok free) = true := hr; rw [h] at hr; cases hr
        | lead _ _ _ _ _ _ h => have hr : aborts p i (s.node i) (.electB i f ok free) = true := hr; rw [h] at hr; cases hr
      | timer i v free =>
        cases timer_b (p := p) (c0 := c0) i (s.node i) v free with
        | boot c1 h _ => exact ⟨c1, h⟩
        | same _ _ h => have hr : aborts p i (s.node i) (.timer i v free) = true := hr; rw [h] at hr; cases hr
        | lead _ _ _ _ _ _ h => have hr : aborts p i (s.node i) (.timer i v free) = true := hr; rw [h] at hr; cases hr
      | _ => cases hr
    obtain ⟨c1, hc1⟩ := this
    exact boot_both c1 hc1 hb' f'
  · rw [if_neg hr]
    rw [Bool.not_eq_true] at hr
    have hlf := led_free hp h hpre
    cases a with
    | electB i f ok free => exact out_both hj cc hb hb' (electB_b i (s.node i) f ok free) hr (fun hl => hlf hl hr)
    | timer i v free => exact out_both hj cc hb hb' (timer_b i (s.node i) v free) hr (fun hl => hlf hl hr)
    | voteRes i r g rj d rt pt ok => exact out_both hj cc hb hb' (voteRes_b i (s.node i) r g rj d rt pt ok) rfl (fun hl => hlf hl hr)
    | changeConf i cf =>
      have hj : Both c0 (s.node i) x := hj
      have hb : BF (s.node i) := hb
      simp only [cpre, Bool.and_eq_true] at hpre
      rw [downOps_nil (by cases hl : (s.node i).state.leads with | false => exact Or.inl hl | true => exact Or.inr hl), List.nil_append, runOps_append]
      refine Half.sync ?_ hb' x
      exact hj.half.conf cf cc (hb.lead hpre.1.1) hj.head.term hb.ap rfl rfl rfl
    | append i t srv prev pt es cm ok gone =>
      have hb : BF (s.node i) := hb
      refine append_both hj i t srv prev pt es cm ok gone hb hb' ?_ ?_
      · intro hlc
        exact (hct (Or.inl (Nat.le_refl _)) (Or.inl (Nat.le_of_eq hlc.symm))).symm
      · have hap : (sAppend i (s.node i) t srv prev pt es cm ok gone).1.applied = (s.node i).applied := append_applied ..
        exact (hct (Or.inr (Nat.le_refl _)) (Or.inr (Nat.le_of_eq hap.symm))).symm
    | disk i =>
      exact disk_both hj i hb hb'
    | replAck i f =>
      have hj : Both c0 (s.node i) x := hj
      have hb : BF (s.node i) := hb
      cases f with
      | send t to prev pt cm => simp [cpre] at hpre
      | ack t who first upTo =>
        rw [downOps_nil (by cases hl : (s.node i).state.leads with | false => exact Or.inl hl | true => exact Or.inr hl), List.nil_append, runOps_append]
        refine Half.sync ?_ hb' x
        exact hj.half.ack first upTo who rfl rfl rfl
    | elect i =>
      simp only [cpre, Bool.and_eq_true, Bool.not_eq_true'] at hpre
      exact same_both hj (electA_b i (s.node i) false hpre.1) hb'
    | timeoutNow i t st ok => exact same_both hj (timeoutNow_b i (s.node i) t st ok) hb'
    | voteReq i t cand claim dis =>
      have e : handlerOps p c0 (s.node i) (.voteReq i t cand claim dis) cc = [] := by
        show (if led (sVoteReqA i (s.node i) t cand claim) then _ else []) = []
        rw [led_voteReqA]; rfl
      exact same_both' e hj (voteReqA_b i (s.node i) t cand claim) hb'
    | voteReqB i f free ok g =>
      have e : handlerOps p c0 (s.node i) (.voteReqB i f free ok g) cc = [] := by
        show (if led (sVoteReqB i (s.node i) f free ok g) then _ else []) = []
        rw [led_voteReqB]; rfl
      exact same_both' e hj (voteReqB_b i (s.node i) f free ok g) hb'
    | install i t srv K ok =>
      have e : handlerOps p c0 (s.node i) (.install i t srv K ok) cc = [] := by
        show (if led (sInstall i (s.node i) t srv K ok) then _ else []) = []
        rw [led_install]; rfl
      exact same_both' e hj (install_b i (s.node i) t srv K ok) hb'
    | replRead i f cnt =>
      have e : handlerOps p c0 (s.node i) (.replRead i f cnt) cc = [] := by
        show (if led (sReplRead i (s.node i) f cnt) then _ else []) = []
        rw [led_replRead]; rfl
      exact same_both' e hj (replRead_b i (s.node i) f cnt) hb'
    | stepDown i t ok => exact same_both hj (stepDown_b (s.node i) t ok) hb'
    | transfer i =>
      simp only [cpre, decide_eq_true_eq] at hpre
      exact same_both hj (.of rfl rfl rfl (by show true = (s.node i).state.leads; rw [hpre]; rfl)) hb'
    | transferTimeout i =>
      simp only [cpre, decide_eq_true_eq] at hpre
      exact same_both hj (.of rfl rfl rfl (by show true = (s.node i).state.leads; rw [hpre]; rfl)) hb'
    | replSend i to prev => exact same_both hj (.of rfl rfl rfl rfl) hb'
    | replRes i who first upTo n => exact same_both hj (.of rfl rfl rfl rfl) hb'
    | sendIS i to => exact same_both hj (.of rfl rfl rfl rfl) hb'
    | saveSnap i k => exact same_both hj (.of rfl rfl rfl rfl) hb'
    | copied i => exact same_both hj (.of rfl rfl rfl rfl) hb'
    | dlDrop i => exact same_both hj (.of rfl rfl rfl rfl) hb'
    | crash i => cases hr
    | electDie i f => cases hr
    | apply i ds => exact absurd rfl (h1 i ds)
    | fsm i => exact absurd rfl (h2 i)
    | loaded i => exact absurd rfl (h3 i)

end Braft.Cl
