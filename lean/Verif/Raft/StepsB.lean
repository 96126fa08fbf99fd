import Verif.Raft.StepsA
/-
Preservation of the invariant: elections, votes, disk steps, commit and apply.
-/
set_option linter.unusedVariables false
set_option linter.unusedSimpArgs false
set_option linter.unusedSectionVars false

namespace Braft.Raft
variable {N D : Type} [DecidableEq N] [DecidableEq D]

/-! ### Same node, longer history -/

theorem NodeInv.self {c0 : Conf N} {i : N} {g g' : Glob N D} (he : Ext i g g')
    (hh : g'.hist i = g.hist i) (hel : g'.elections = g.elections) (hcr : g'.created = g.created)
    (hvo : g'.votes = g.votes) {n : NodeSt N D} (h : NodeInv c0 g i n) : NodeInv c0 g' i n where
  pt := h.pt
  t1 := h.t1
  mem := h.mem
  hd := he.hist i _ h.hd
  gd := h.gd.ext he
  vgood := h.vgood.imp (fun d op _ hp => hp.ext he)
  lt := h.lt
  gh := fun O hO => (h.gh O (by rw [← hh]; exact hO)).ext he
  rh := fun O hO => (h.rh O (by rw [← hh]; exact hO)).ext he
  vrel := h.vrel.imp (fun d op _ hp => hp.ext he)
  vmark := h.vmark.imp (fun d op _ hp => hp.ext he)
  lead := fun hr => by
    obtain ⟨h1, r, h2, h3⟩ := h.lead hr
    exact ⟨by rw [hcr]; exact h1, r, he.emem r h2, h3⟩
  el := by rw [hel]; exact h.el
  v1 := by rw [hvo]; exact h.v1
  vmem := h.vmem
  pv := by rw [hvo]; exact h.pv
  mv := by rw [hvo]; exact h.mv
  elec := h.elec
  cand := h.cand
  vf := fun f hf => ⟨he.msgs _ (h.vf f hf).1, (h.vf f hf).2⟩
  cl := h.cl
  cc := h.cc.ext he
  ap := h.ap
  ac := h.ac.ext he
  sn := h.sn
  sp := h.sp
  cs := h.cs.ext he
  sa := h.sa
  dlc := fun K hK => ⟨(h.dlc K hK).1.ext he, (h.dlc K hK).2⟩
  dlf := h.dlf
  smi := h.smi

theorem updF_self {β : Type} (f : N → β) (i : N) : updF f i (f i) = f := by
  funext j; unfold updF; split
  · next h => rw [h]
  · rfl

/-- Only the history changes. -/
theorem inv_g {c0 : Conf N} {s : Sys N D} (h : Inv c0 s) (i : N) {g' : Glob N D}
    (he : Ext i s.g g') (hg : GInv c0 g')
    (hh : g'.hist i = s.g.hist i) (hel : g'.elections = s.g.elections)
    (hcr : g'.created = s.g.created) (hvo : g'.votes = s.g.votes) : Inv c0 { s with g := g' } := by
  have := inv_upd h i he hg ((h.n i).self he hh hel hcr hvo)
    (fun j _ _ K hK => Or.inl (by rw [← hcr]; exact hK)) (h.own i)
  rw [updF_self] at this
  exact this

/-! ### Elections -/

theorem inv_raiseTerm {c0 : Conf N} {s : Sys N D} (h : Inv c0 s) (i : N) (t : Nat) (ok : Bool) :
    Inv c0 (setNode s i (stepDown (s.node i) t ok)) :=
  inv_node h i ((h.n i).stepDown t ok) (by intro hr; simp at hr)

theorem inv_electStart {c0 : Conf N} {s : Sys N D} (h : Inv c0 s) (i : N)
    (hdl : (s.node i).dl = none) : Inv c0 (setNode s i (electStart c0 i (s.node i))) :=
  inv_node h i ((h.n i).electStart hdl) (by intro hr; simp [electStart] at hr)

theorem inv_crash {c0 : Conf N} {s : Sys N D} (h : Inv c0 s) (i : N) :
    Inv c0 {
      node := updF s.node i (restart (s.node i)), g := s.g.held i (s.node i).psnap } :=
  inv_upd h i (ext_held i s.g _) (h.g.held i _) ((h.n i).restart h.g.toGBase)
    (fun j _ _ K hK => Or.inl hK) (by intro hr; rw [restart_role] at hr; cases hr)

theorem inv_electSend {c0 : Conf N} {s : Sys N D} (h : Inv c0 s) (i : N) (o : Log N D)
    (he : (s.node i).elect = some (s.node i).term) (ho : o ∈ s.g.hist i)
    (hq : noAckL (s.node i).queue = true) :
    Inv c0 { node := updF s.node i { s.node i with
               elect := none, ready := true, pterm := (s.node i).term, pvote := some i },
             g := (s.g.voted (s.node i).term i i).send (.rv (s.node i).term i (lastId o)) } := by
  have hn := h.n i
  have hel := (hn.elec _ he).2 rfl
  have hnone : ∀ v ∈ s.g.votes, v.term = (s.node i).term → v.voter = i → False := by
    intro v hv ht hi
    rcases hn.v1 v hv hi with h' | ⟨h', _⟩ <;> omega
  have hg1 : GInv c0 (s.g.voted (s.node i).term i i) := by
    apply h.g.voted
    · intro v hv ht hi; exact (hnone v hv ht hi).elim
    · intro t' M hM _ K _ hKM
      obtain ⟨_, ⟨O, hO, hO'⟩, _⟩ := h.g.ak t' i M hM
      exact Or.inl ⟨O, hO, hKM.trans hO'⟩
  have hE : Ext i s.g ((s.g.voted (s.node i).term i i).send (.rv (s.node i).term i (lastId o))) :=
    (ext_voted i s.g _ i).trans (ext_send i _ _)
  apply inv_upd h i hE
  · exact hg1.send ⟨o, ho, rfl, by have := hn.t1; omega⟩
  · exact {
      pt := Nat.le_refl _
      t1 := Nat.le_trans hn.t1 hn.pt
      mem := hn.mem
      hd := hn.hd
      gd := hn.gd.ext hE
      vgood := hn.vgood.imp (fun d op _ hp => hp.ext hE)
      lt := hn.lt
      gh := fun O hO => (hn.gh O hO).ext hE
      rh := fun O hO => (hn.rh O hO).ext hE
      vrel := hn.vrel.imp (fun d op _ hp => hp.ext hE)
      vmark := hn.vmark.imp (fun d op _ hp => (hp.ext hE).upd (Nat.le_refl _)
        (fun _ => List.prefix_refl _) (fun hr => ⟨hr, rfl⟩))
      lead := hn.lead
      el := fun r hr hi => ⟨by have := (hn.el r hr hi).1; have := hn.pt; show r.term ≤ (s.node i).term; omega,
        (hn.el r hr hi).2⟩
      v1 := fun v hv hi => by
        simp only [Glob.send, Glob.voted, List.mem_cons] at hv
        rcases hv with hv | hv
        · subst hv; exact Or.inr ⟨rfl, Or.inr rfl⟩
        · left
          show v.term < (s.node i).term
          rcases hn.v1 v hv hi with h' | ⟨h', _⟩ <;> omega
      vmem := fun _ c hc => by
        have hc' : some i = some c := hc
        rw [← hc']; exact hel.1
      pv := fun c hc => by
        have hc' : some i = some c := hc
        obtain rfl : i = c := Option.some.inj hc'
        exact ⟨s.g.elections.length, by simp [Glob.send, Glob.voted]⟩
      mv := fun c hc hne => by
        obtain ⟨k, hk⟩ := hn.mv c hc hne
        exact ⟨k, hE.votes _ hk⟩
      elec := by intro T hT; simp at hT
      cand := fun hr => ⟨(hn.cand hr).1, (hn.cand hr).2.1, fun _ => ⟨rfl, rfl, hq⟩⟩
      vf := fun f hf => ⟨hE.msgs _ (hn.vf f hf).1, (hn.vf f hf).2⟩
      cl := hn.cl
      cc := hn.cc.ext hE
      ap := hn.ap
      ac := hn.ac.ext hE
      sn := hn.sn
      sp := hn.sp
      cs := (hn.cs.ext hE).mono hn.pt
      sa := hn.sa
      dlc := fun K hK => ⟨(hn.dlc K hK).1.ext hE, (hn.dlc K hK).2⟩
      dlf := hn.dlf
      smi := hn.smi }
  · intro j _ _ K hK; exact Or.inl hK
  · exact h.own i

theorem inv_electCrash {c0 : Conf N} {s : Sys N D} (h : Inv c0 s) (i : N) (o : Log N D)
    (he : (s.node i).elect = some (s.node i).term) (ho : o ∈ s.g.hist i) :
    Inv c0 { node := updF s.node i (restart (s.node i)),
             g := (s.g.held i (s.node i).psnap).send (.rv (s.node i).term i (lastId o)) } := by
  have h1 := inv_crash h i
  have := inv_g h1 i (ext_send i (s.g.held i (s.node i).psnap) (.rv (s.node i).term i (lastId o)))
    (h1.g.send (m := .rv (s.node i).term i (lastId o))
      ⟨o, (ext_held i s.g _).hist i o ho, rfl, by
        have h1 := (((h.n i).elec _ he).2 rfl).2; have h2 := (h.n i).t1; omega⟩) rfl rfl rfl rfl
  exact this

theorem inv_voteBegin {c0 : Conf N} {s : Sys N D} (h : Inv c0 s) (i : N) (t : Nat) (cand : N)
    (claim : Nat × Nat) (hm : Msg.rv t cand claim ∈ s.g.msgs) (ht : (s.node i).term ≤ t)
    (hc : cand ≠ i) :
    Inv c0 (setNode s i { s.node i with
      vframes := ⟨t, cand, claim, (s.node i).term, lastId (s.node i).log⟩ ::
        (s.node i).vframes }) := by
  apply inv_node h i
  · apply (h.n i).vframe
    intro f hf
    rcases List.mem_cons.mp hf with rfl | hf
    · exact ⟨hm, ht, hc⟩
    · exact (h.n i).vf f hf
  · exact h.own i

theorem inv_voteDrop {c0 : Conf N} {s : Sys N D} (h : Inv c0 s) (i : N) (f : VFrame N) :
    Inv c0 (setNode s i { s.node i with vframes := (s.node i).vframes.erase f }) := by
  apply inv_node h i
  · exact (h.n i).vframe _ (fun f' hf => (h.n i).vf f' (List.mem_of_mem_erase hf))
  · exact h.own i

theorem inv_voteAgain {c0 : Conf N} {s : Sys N D} (h : Inv c0 s) (i : N) (t : Nat) (cand : N)
    (hc : cand ≠ i) (ht : (s.node i).term = t) (hv : (s.node i).vote = some cand) :
    Inv c0 { s with g := s.g.send (.vr t i cand) } := by
  apply inv_g h i (ext_send i s.g _) _ rfl rfl rfl rfl
  apply h.g.send
  obtain ⟨k, hk⟩ := (h.n i).mv cand hv hc
  exact ⟨k, by rw [← ht]; exact hk⟩

/-- The vote handler's second half. -/
theorem inv_voteEnd {c0 : Conf N} {s : Sys N D} (h : Inv c0 s) (i : N) (f : VFrame N)
    (ok grantOk : Bool) (hf : f ∈ (s.node i).vframes) (hs : f.savedTerm = (s.node i).term)
    (hl : f.lastId = lastId (s.node i).log) :
    Inv c0 (if (voteFinish (s.node i) f ok grantOk).2 then
        { node := updF s.node i (voteFinish (s.node i) f ok grantOk).1,
          g := (s.g.voted f.reqTerm i f.cand).send (.vr f.reqTerm i f.cand) }
      else setNode s i (voteFinish (s.node i) f ok grantOk).1) := by
  have hn := h.n i
  obtain ⟨hm, hle, hci⟩ := hn.vf f hf
  -- after the possible step down
  generalize hn1 : (if (s.node i).term < f.reqTerm then stepDown (s.node i) f.reqTerm ok
    else s.node i) = n1
  have hi1 : NodeInv c0 s.g i n1 := by
    rw [← hn1]; split
    · exact hn.stepDown _ _
    · exact hn
  have ht1 : n1.term = f.reqTerm := by
    rw [← hn1]; split
    · rw [stepDown_term]; omega
    · omega
  have hl1 : n1.log = (s.node i).log := by
    rw [← hn1]; split
    · simp
    · rfl
  have hr1 : n1.role = .leader → OwnOK n1 := by
    rw [← hn1]; split
    · intro hr; simp at hr
    · exact h.own i
  have hi2 : NodeInv c0 s.g i { n1 with vframes := (s.node i).vframes.erase f } :=
    hi1.vframe _ (fun f' hf => hn.vf f' (List.mem_of_mem_erase hf))
  unfold voteFinish
  rw [hn1]
  simp only []
  by_cases hg : (idLe f.lastId f.claim = true ∧ n1.vote = none)
  · rw [if_pos hg]
    generalize hn2 : stepDown { n1 with vframes := (s.node i).vframes.erase f } f.reqTerm ok = n2
    have hi3 : NodeInv c0 s.g i n2 := by rw [← hn2]; exact hi2.stepDown _ _
    have ht2 : n2.term = f.reqTerm := by
      rw [← hn2, stepDown_term]; show max n1.term f.reqTerm = f.reqTerm; omega
    have hv2 : n2.vote = none := by
      rw [← hn2]; unfold stepDown
      split
      · rfl
      · exact hg.2
    have hr2 : n2.role = .follower := by rw [← hn2]; simp
    have hl2 : n2.log = (s.node i).log := by rw [← hn2]; simpa using hl1
    by_cases hgo : grantOk = true
    · rw [if_pos hgo]
      simp only [if_true]
      have hnone : ∀ v ∈ s.g.votes, v.term = f.reqTerm → v.voter = i → False := by
        intro v hv ht hi
        have hpt := hi3.pt
        obtain ⟨_, _, _, h2t⟩ := h.g.rv _ _ _ hm
        rcases hi3.v1 v hv hi with h' | ⟨h', hp | hp⟩
        · omega
        · omega
        · have := hi3.vmem (by omega) _ hp
          rw [hv2] at this; cases this
      have hg1 : GInv c0 (s.g.voted f.reqTerm i f.cand) := by
        apply h.g.voted
        · intro v hv ht hi; exact (hnone v hv ht hi).elim
        · intro t' M hM _ K hK hKM
          obtain ⟨_, ⟨O, hO, hO'⟩, _⟩ := h.g.ak t' i M hM
          rcases hn.rlog h.g.toGBase hO K hK (hKM.trans hO') with hk | hk
          · obtain ⟨O', hO2, hcl, _⟩ := h.g.rv _ _ _ hm
            have hle' := hg.1
            rw [hl, hcl] at hle'
            rcases idle_pref h.g.toGBase hn.glog.1 ((h.n f.cand).gh O' hO2) hle' hK hk with h' | h'
            · exact Or.inl ⟨O', hO2, h'⟩
            · exact Or.inr h'
          · exact Or.inr hk
      have hE : Ext i s.g ((s.g.voted f.reqTerm i f.cand).send (.vr f.reqTerm i f.cand)) :=
        (ext_voted i s.g _ _).trans (ext_send i _ _)
      apply inv_upd h i hE
      · exact hg1.send ⟨s.g.elections.length, by simp [Glob.voted]⟩
      · exact {
          pt := Nat.le_refl _
          t1 := Nat.le_trans hi3.t1 hi3.pt
          mem := hi3.mem
          hd := hi3.hd
          gd := hi3.gd.ext hE
          vgood := hi3.vgood.imp (fun d op _ hp => hp.ext hE)
          lt := hi3.lt
          gh := fun O hO => (hi3.gh O hO).ext hE
          rh := fun O hO => (hi3.rh O hO).ext hE
          vrel := hi3.vrel.imp (fun d op _ hp => hp.ext hE)
          vmark := hi3.vmark.imp (fun d op _ hp => (hp.ext hE).upd (Nat.le_refl _)
            (fun _ => List.prefix_refl _) (fun hr => ⟨hr, rfl⟩))
          lead := hi3.lead
          el := fun r hr hi => ⟨by
            have := (hi3.el r hr hi).1; have := hi3.pt; show r.term ≤ n2.term; omega,
            (hi3.el r hr hi).2⟩
          v1 := fun v hv hi => by
            simp only [Glob.send, Glob.voted, List.mem_cons] at hv
            rcases hv with hv | hv
            · subst hv; exact Or.inr ⟨ht2.symm, Or.inr rfl⟩
            · left
              show v.term < n2.term
              have hpt := hi3.pt
              have := hnone v hv
              rcases Nat.lt_or_ge v.term n2.term with h' | h'
              · exact h'
              · exfalso
                rcases hi3.v1 v hv hi with h'' | ⟨h'', _⟩
                · omega
                · exact this (by omega) hi
          vmem := fun _ c hc => hc
          pv := fun c hc => by
            obtain rfl : f.cand = c := Option.some.inj hc
            exact ⟨s.g.elections.length, by simp [Glob.send, Glob.voted, ht2]⟩
          mv := fun c hc hne => by
            obtain rfl : f.cand = c := Option.some.inj hc
            exact ⟨s.g.elections.length, by simp [Glob.send, Glob.voted, ht2]⟩
          elec := fun T hT => by
            refine ⟨(hi3.elec T hT).1, ?_⟩
            intro he
            have := ((hi3.elec T hT).2 he).1
            rw [hv2] at this; cases this
          cand := by intro hr; rw [show n2.role = .candidate from hr] at hr2; cases hr2
          vf := fun f hf => ⟨hE.msgs _ (hi3.vf f hf).1, (hi3.vf f hf).2⟩
          cl := hi3.cl
          cc := hi3.cc.ext hE
          ap := hi3.ap
          ac := hi3.ac.ext hE
          sn := hi3.sn
          sp := hi3.sp
          cs := (hi3.cs.ext hE).mono hi3.pt
          sa := hi3.sa
          dlc := fun K hK => ⟨(hi3.dlc K hK).1.ext hE, (hi3.dlc K hK).2⟩
          dlf := hi3.dlf
          smi := hi3.smi }
      · intro j _ _ K hK; exact Or.inl hK
      · intro hr; rw [show n2.role = .leader from hr] at hr2; cases hr2
    · rw [if_neg hgo]
      simp only [Bool.false_eq_true, if_false]
      apply inv_node h i hi3
      intro hr; rw [hr2] at hr; cases hr
  · rw [if_neg hg]
    simp only [Bool.false_eq_true, if_false]
    exact inv_node h i hi2 hr1

/-! ### AppendEntries sent -/

theorem leader_term_pos {c0 : Conf N} {g : Glob N D} (hg : GBase c0 g) {i : N} {n : NodeSt N D}
    (h : NodeInv c0 g i n) (hr : n.role = .leader) : 0 < n.term := by
  obtain ⟨_, r, h1, h2, h3, _⟩ := h.lead hr
  have := hg.elt r h1
  omega

theorem inv_sendAE {c0 : Conf N} {s : Sys N D} (h : Inv c0 s) (i : N) (prev cnt c : Nat)
    (hr : (s.node i).role = .leader) (hp : prev ≤ (s.node i).log.length)
    (hc : c ≤ (s.node i).commit) :
    Inv c0 { s with g := s.g.send (.ae (s.node i).term prev (termAt (s.node i).log prev)
                              (((s.node i).log.drop prev).take cnt) c) } := by
  have hn := h.n i
  apply inv_g h i (ext_send i s.g _) _ rfl rfl rfl rfl
  apply h.g.send
  have hlt := (h.own i hr).2
  have hpos := leader_term_pos h.g.toGBase hn hr
  have hne : (s.node i).log ≠ [] := by
    intro hh; rw [hh] at hlt; simp [lastTerm] at hlt; omega
  have hpre : (s.node i).log.take prev ++ ((s.node i).log.drop prev).take cnt <+: (s.node i).log := by
    rw [← List.take_append_drop prev (s.node i).log]
    simp only [List.take_append_drop]
    conv => rhs; rw [← List.take_append_drop prev (s.node i).log]
    exact (List.prefix_append_right_inj _).mpr (List.take_prefix _ _)
  refine ⟨(s.node i).log, hn.glog.1 _ hne (List.prefix_refl _), hlt, (s.node i).log.take prev,
    by simp; omega, (termAt_take hp).symm, hpre, ?_⟩
  have hcc := hn.cc
  apply hcc.pre
  have h1 := (List.take_prefix (min c (prev + (((s.node i).log.drop prev).take cnt).length))
    ((s.node i).log.take prev ++ ((s.node i).log.drop prev).take cnt)).trans hpre
  apply List.prefix_of_prefix_length_le h1 (List.take_prefix _ _)
  have := hn.cl
  simp only [List.length_take]
  omega

/-! ### Disk -/

theorem NodeInv.diskPop {c0 : Conf N} {g : Glob N D} {i : N} {n : NodeSt N D} {op : Op N D}
    {q : List (Op N D)} (hgb : GBase c0 g) (h : NodeInv c0 g i n) (hq : n.queue = op :: q) :
    NodeInv c0 (g.held i (applyOp n.disk op)) i { n with disk := applyOp n.disk op, queue := q } := by
  have hE := ext_held i g (applyOp n.disk op)
  have hvg := h.vgood; have hvr := h.vrel; have hvm := h.vmark; have hmem := h.mem
  rw [hq] at hvg hvr hvm hmem
  have hcase : ∀ O ∈ (g.held i (applyOp n.disk op)).hist i, O = applyOp n.disk op ∨ O ∈ g.hist i := by
    intro O hO
    simpa [Glob.held, updF] using hO
  exact {
    pt := h.pt
    t1 := h.t1
    mem := hmem
    hd := by simp [Glob.held, updF]
    gd := hvg.1
    vgood := hvg.2
    lt := h.lt
    gh := fun O hO => by
      rcases hcase O hO with h' | h'
      · rw [h']; exact hvg.1
      · exact h.gh O h'
    rh := fun O hO => by
      rcases hcase O hO with h' | h'
      · rw [h']; exact merge_rel hgb (h.cs.pre h.sp) hvg.1
      · exact (h.rh O h').trans (merge_rel2 hgb (h.gsnap hgb) h.gd hvg.1 hvr.1)
    vrel := hvr.2
    vmark := hvm.2.imp (fun d op _ hp => (hp.ext hE).upd (Nat.le_refl _)
        (fun _ => List.prefix_refl _) (fun hr => ⟨hr, rfl⟩))
    lead := h.lead
    el := h.el
    v1 := h.v1
    vmem := h.vmem
    pv := h.pv
    mv := h.mv
    elec := h.elec
    cand := fun hr => ⟨(h.cand hr).1, (h.cand hr).2.1, fun hy => by
      obtain ⟨a, b, c⟩ := (h.cand hr).2.2 hy
      refine ⟨a, b, ?_⟩
      rw [hq] at c
      simp only [noAckL, List.all_cons, Bool.and_eq_true] at c
      exact c.2⟩
    vf := h.vf
    cl := h.cl
    cc := h.cc
    ap := h.ap
    ac := h.ac
    sn := h.sn
    sp := h.sp
    cs := h.cs
    sa := h.sa
    dlc := h.dlc
    dlf := h.dlf
    smi := h.smi }

theorem inv_disk {c0 : Conf N} {s : Sys N D} (h : Inv c0 s) (i : N) : Inv c0 (diskStep s i) := by
  have hn := h.n i
  unfold diskStep
  simp only []
  split
  · exact h
  next op q hq =>
    have h1 := hn.diskPop h.g.toGBase hq
    have hmk := hn.vmark
    rw [hq] at hmk
    replace hmk := hmk.1
    have hvt : ∀ v ∈ s.g.votes, v.voter = i → v.term ≤ (s.node i).term := by
      intro v hv hi
      have := hn.pt
      rcases hn.v1 v hv hi with h' | ⟨h', _⟩ <;> omega
    have hplain : Inv c0 {
        node := updF s.node i { s.node i with disk := applyOp (s.node i).disk op, queue := q },
        g := s.g.held i (applyOp (s.node i).disk op) } :=
      inv_upd h i (ext_held i s.g _) (h.g.held i _) h1 (fun j _ _ K hK => Or.inl hK) (h.own i)
    match op with
    | .push e => exact hplain
    | .pop => exact hplain
    | .snap _ => exact hplain
    | .ackF t M c =>
      simp only []
      by_cases ht : t = (s.node i).term
      · rw [if_pos ht]
        obtain ⟨hMne, hMd, hL, _, hMlog, hcom⟩ := hmk
        have hMl := hMlog ht
        have hE2 := ext_ack i (s.g.held i (applyOp (s.node i).disk (.ackF t M c))) t M
        have hg2 : GInv c0 ((s.g.held i (applyOp (s.node i).disk (.ackF t M c))).ack t i M) := by
          apply (h.g.held i _).ack hMne
          · intro v hv hi; rw [ht]; exact hvt v hv hi
          · exact ⟨(s.node i).disk, by simp [Glob.held, updF, applyOp], hMd⟩
          · exact hL
        apply inv_upd h i ((ext_held i s.g _).trans hE2) hg2
        · have h2 := h1.self hE2 rfl rfl rfl rfl
          exact { h2 with
            vmark := h2.vmark.imp (fun d op _ hp => hp.upd (Nat.le_refl _)
              (fun _ => List.prefix_refl _) (fun hr => ⟨hr, rfl⟩))
            cl := by
              have := hn.cl; have := hMl.length_le
              show (if (s.node i).role = .leader then (s.node i).commit
                else max (s.node i).commit (min c M.length)) ≤ (s.node i).log.length
              split <;> omega
            cc := by
              show Committed _ (s.node i).term ((s.node i).log.take (if (s.node i).role = .leader
                then (s.node i).commit else max (s.node i).commit (min c M.length)))
              split
              · exact h2.cc
              rcases Nat.le_total (s.node i).commit (min c M.length) with hle | hle
              · rw [Nat.max_eq_right hle, take_pref_of hMl (by omega), ← ht]
                exact (hcom.ext (ext_held i s.g _)).ext hE2
              · rw [Nat.max_eq_left hle]
                exact h2.cc }
        · intro j _ _ K hK; exact Or.inl hK
        · exact h.own i
      · rw [if_neg ht]; exact hplain
    | .ackL M =>
      simp only []
      by_cases hr : (s.node i).role = .leader
      · rw [if_pos hr]
        obtain ⟨hMne, hMd, hMc, hMt⟩ := hmk
        have hE2 := ext_ack i (s.g.held i (applyOp (s.node i).disk (.ackL M))) (s.node i).term M
        have hg2 : GInv c0 ((s.g.held i (applyOp (s.node i).disk (.ackL M))).ack (s.node i).term i M) := by
          apply (h.g.held i _).ack hMne
          · exact hvt
          · exact ⟨(s.node i).disk, by simp [Glob.held, updF, applyOp], hMd⟩
          · exact ⟨M, hMc, hMt hr, List.prefix_refl _⟩
        exact inv_upd h i ((ext_held i s.g _).trans hE2) hg2 (h1.self hE2 rfl rfl rfl rfl)
          (fun j _ _ K hK => Or.inl hK) (h.own i)
      · rw [if_neg hr]; exact hplain

/-! ### Commit and apply -/

theorem ext_commit (i : N) (g : Glob N D) (K : Log N D) :
    Ext i g { g with commits := K :: g.commits } where
  msgs := fun _ h => h
  hist := fun _ _ h => h
  histj := fun _ _ => rfl
  created := fun _ h => h
  elections := ⟨[], by simp, by simp⟩
  votes := fun _ h => h
  votesn := fun _ h => Or.inl h
  acks := fun _ h => h
  commits := fun _ h => by simp [h]

theorem inv_commit {c0 : Conf N} {s : Sys N D} (h : Inv c0 s) (i : N) (k : Nat) (q : List N)
    (hr : (s.node i).role = .leader) (hk : (s.node i).commit < k)
    (hkl : k ≤ (s.node i).log.length) (ht : termAt (s.node i).log k = (s.node i).term)
    (hq : (confOf c0 ((s.node i).log.take k)).Quorum (fun v => decide (v ∈ q)))
    (ha : ∀ v ∈ q, ∃ m ∈ s.g.msgs, ∃ u, m = Msg.ar (s.node i).term v u ∧ k ≤ u) :
    Inv c0 {
      node := updF s.node i { s.node i with commit := k },
      g := { s.g with commits := (s.node i).log.take k :: s.g.commits } } := by
  have hn := h.n i
  have hE := ext_commit i s.g ((s.node i).log.take k)
  generalize hKd : (s.node i).log.take k = K
  have hKl : K <+: (s.node i).log := by rw [← hKd]; exact List.take_prefix _ _
  have hKlen : K.length = k := by rw [← hKd]; simp; omega
  have hKne : K ≠ [] := by intro hh; rw [hh] at hKlen; simp at hKlen; omega
  have hKc : K ∈ s.g.created := hn.glog.1 K hKne hKl
  have hKt : lastTerm K = (s.node i).term := by rw [← hKd, ← termAt_take hkl]; exact ht
  have hcomK : ∃ K', Direct (facts s.g) c0 K' ∧ lastTerm K' = lastTerm K ∧ K <+: K' := by
    have key : ∀ v ∈ q, ∃ M, K <+: M ∧ (⟨(s.node i).term, v, M⟩ ∈ s.g.acks ∨
        Committed s.g (s.node i).term M) := by
      intro v hv
      obtain ⟨m, hm, u, rfl, hku⟩ := ha v hv
      obtain ⟨M, hMl, _, ⟨L, hL, hLt, hML⟩, hor⟩ := h.g.ar _ _ _ hm
      have hLl := (hn.lead hr).1 L hL hLt
      exact ⟨M, List.prefix_of_prefix_length_le hKl (hML.trans hLl) (by omega), hor⟩
    by_cases hex : ∃ M, K <+: M ∧ Committed s.g (s.node i).term M
    · obtain ⟨M, hKM, hcm⟩ := hex
      rcases hcm with rfl | ⟨K1, hK1, hK1t, hMK1⟩
      · exact absurd (List.prefix_nil.mp hKM) hKne
      · obtain ⟨hK1c, K', hD, hK't, hK1K'⟩ := h.g.com K1 hK1
        have := h.g.mono K1 hK1c K (hKM.trans hMK1)
        exact ⟨K', hD, by omega, (hKM.trans hMK1).trans hK1K'⟩
    · refine ⟨K, ⟨hKc, _, by rw [← hKd]; exact hq, ?_⟩, rfl, List.prefix_refl _⟩
      intro v hv
      obtain ⟨M, hKM, hor⟩ := key v (by simpa using hv)
      rcases hor with hor | hor
      · exact ⟨M, by rw [hKt]; exact hor, hKM⟩
      · exact absurd ⟨M, hKM, hor⟩ hex
  rw [hKd] at hE
  have hg' : GInv c0 { s.g with commits := K :: s.g.commits } := {
    chain := h.g.chain
    closed := h.g.closed
    mono := h.g.mono
    origin := h.g.origin
    elog := h.g.elog
    elt := h.g.elt
    change := h.g.change
    el := h.g.el
    vuniq := h.g.vuniq
    vk := h.g.vk
    vinv := h.g.vinv
    ak := h.g.ak
    rv := h.g.rv
    vr := h.g.vr
    ae := fun t prev pt es c hm => (h.g.ae t prev pt es c hm).ext hE
    ar := fun t v m hm => (h.g.ar t v m hm).ext hE
    is := fun t K hm => (h.g.is t K hm).ext hE
    com := fun K2 hK2 => by
      simp only [List.mem_cons] at hK2
      rcases hK2 with rfl | hK2
      · exact ⟨hKc, hcomK⟩
      · exact h.g.com K2 hK2
    app := fun j m e hm => by
      obtain ⟨h1, K2, h2, h3⟩ := h.g.app j m e hm
      exact ⟨h1, K2, by simp [h2], h3⟩
    euniq := h.g.euniq }
  apply inv_upd h i hE hg'
  · have h2 := hn.self hE rfl rfl rfl rfl
    exact { h2 with
      vmark := h2.vmark.imp (fun d op _ hp => hp.upd (Nat.le_refl _)
        (fun _ => List.prefix_refl _) (fun hr => ⟨hr, rfl⟩))
      cl := hkl
      cc := by
        right
        show ∃ K2 ∈ K :: s.g.commits, lastTerm K2 ≤ (s.node i).term ∧ (s.node i).log.take k <+: K2
        refine ⟨K, by simp, by omega, by rw [hKd]; exact List.prefix_refl _⟩ }
  · intro j _ _ K2 hK2; exact Or.inl hK2
  · exact h.own i

theorem ext_applies (i : N) (g : Glob N D) (a : List (N × Nat × Entry N D)) :
    Ext i g { g with applies := a } where
  msgs := fun _ h => h
  hist := fun _ _ h => h
  histj := fun _ _ => rfl
  created := fun _ h => h
  elections := ⟨[], by simp, by simp⟩
  votes := fun _ h => h
  votesn := fun _ h => Or.inl h
  acks := fun _ h => h
  commits := fun _ h => h

theorem inv_apply {c0 : Conf N} {s : Sys N D} (h : Inv c0 s) (i : N)
    (ha : (s.node i).applied < (s.node i).commit) :
    Inv c0 {
      node := updF s.node i { s.node i with
        applied := (s.node i).applied + 1,
        sm := (s.node i).sm ++ ((s.node i).log.drop (s.node i).applied).take 1 },
      g := { s.g with applies := match (s.node i).log[(s.node i).applied]? with
        | none => s.g.applies
        | some e => (i, (s.node i).applied + 1, e) :: s.g.applies } } := by
  have hn := h.n i
  have hcl := hn.cl
  have hlt : (s.node i).applied < (s.node i).log.length := by omega
  have hE := ext_applies i s.g (match (s.node i).log[(s.node i).applied]? with
        | none => s.g.applies
        | some e => (i, (s.node i).applied + 1, e) :: s.g.applies)
  rw [List.getElem?_eq_getElem hlt] at hE ⊢
  simp only [] at hE ⊢
  have hmem : ∃ K ∈ s.g.commits, K[(s.node i).applied]? = some (s.node i).log[(s.node i).applied] := by
    rcases hn.cc with hnil | ⟨K, hK, _, hpre⟩
    · have := congrArg List.length hnil
      simp at this
      rcases this with h0 | h0
      · omega
      · rw [h0] at hlt; simp at hlt
    · refine ⟨K, hK, ?_⟩
      obtain ⟨tl, rfl⟩ := hpre
      have hl2 : (s.node i).applied < ((s.node i).log.take (s.node i).commit).length := by
        simp; omega
      rw [List.getElem?_append_left hl2, List.getElem?_eq_getElem hl2, List.getElem_take]
  apply inv_upd h i hE
  · exact {
      chain := h.g.chain
      closed := h.g.closed
      mono := h.g.mono
      origin := h.g.origin
      elog := h.g.elog
      elt := h.g.elt
      change := h.g.change
      el := h.g.el
      vuniq := h.g.vuniq
      vk := h.g.vk
      vinv := h.g.vinv
      ak := h.g.ak
      rv := h.g.rv
      vr := h.g.vr
      ae := fun t prev pt es c hm => (h.g.ae t prev pt es c hm).ext hE
      ar := fun t v m hm => (h.g.ar t v m hm).ext hE
      is := fun t K hm => (h.g.is t K hm).ext hE
      com := h.g.com
      app := fun j m e hm => by
        simp only [List.mem_cons, Prod.mk.injEq] at hm
        rcases hm with ⟨rfl, rfl, rfl⟩ | hm
        · exact ⟨by omega, by simpa using hmem⟩
        · exact h.g.app j m e hm
      euniq := h.g.euniq }
  · have h2 := hn.self hE rfl rfl rfl rfl
    exact { h2 with
      vmark := h2.vmark.imp (fun d op _ hp => hp.upd (Nat.le_refl _)
        (fun _ => List.prefix_refl _) (fun hr => ⟨hr, rfl⟩))
      ap := by show (s.node i).applied + 1 ≤ (s.node i).log.length; omega
      ac := by
        show Committed _ (s.node i).term ((s.node i).log.take ((s.node i).applied + 1))
        apply h2.cc.pre
        exact List.take_prefix_take_left (by omega)
      sa := by have := hn.sa; show (s.node i).snap.length ≤ (s.node i).applied + 1; omega
      smi := by
        show (s.node i).sm ++ ((s.node i).log.drop (s.node i).applied).take 1 =
          (s.node i).log.take ((s.node i).applied + 1)
        rw [hn.smi, List.take_add] }
  · intro j _ _ K2 hK2; exact Or.inl hK2
  · exact h.own i

end Braft.Raft
