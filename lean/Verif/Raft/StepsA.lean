import Verif.Raft.Merge
/-
Preservation of the invariant: elections, votes, restarts, disk steps, commit and apply.
-/
set_option linter.unusedVariables false
set_option linter.unusedSimpArgs false
set_option linter.unusedSectionVars false

namespace Braft.Raft
variable {N D : Type} [DecidableEq N] [DecidableEq D]

theorem inv_init (c0 : Conf N) : Inv c0 (initSys (N := N) (D := D) c0) := by
  refine ⟨⟨⟨⟨?_, ?_, ?_, ?_, ?_, ?_, ?_, ?_, ?_, ?_, ?_, ?_, ?_, ?_, ?_, ?_, ?_, ?_, ?_⟩, ?_⟩, ?_⟩, ?_⟩
  any_goals (simp [initSys, initGlob]; done)
  · intro i
    constructor <;>
      simp [initSys, initGlob, freshNode, drain, VOk, GoodAt, Good, lastTerm, Rel, Committed,
        merge_nil]
    intro K h1 h2; exact absurd h2 h1
  · intro i h; simp [initSys, freshNode] at h

/-! ### Changing one node -/

theorem Mark.upd {g : Glob N D} {n n' : NodeSt N D} {d : Log N D} {op : Op N D}
    (h : Mark g n d op) (ht : n.term ≤ n'.term)
    (hlog : n'.term = n.term → n.log <+: n'.log)
    (hr : n'.role = .leader → n.role = .leader ∧ n'.term = n.term) : Mark g n' d op := by
  cases op with
  | push => trivial
  | pop => trivial
  | snap => trivial
  | ackF t M c =>
    obtain ⟨h0, h1, h2, h3, h4, h5⟩ := h
    refine ⟨h0, h1, h2, by omega, ?_, h5⟩
    intro he
    have : n'.term = n.term := by omega
    exact (h4 (by omega)).trans (hlog this)
  | ackL M =>
    refine ⟨h.1, h.2.1, h.2.2.1, ?_⟩
    intro hl
    obtain ⟨h1, h2⟩ := hr hl
    rw [h2]; exact h.2.2.2 h1

theorem NodeInv.stepDown {c0 : Conf N} {g : Glob N D} {i : N} {n : NodeSt N D}
    (h : NodeInv c0 g i n) (t : Nat) (ok : Bool) : NodeInv c0 g i (stepDown n t ok) := by
  have hpt := h.pt
  unfold Raft.stepDown
  by_cases ht : n.term < t
  · rw [if_pos ht]
    have hp : n.pterm ≤ (if ok = true then t else n.pterm) := by cases ok <;> simp <;> omega
    exact {
      pt := by show (if ok = true then t else n.pterm) ≤ t; cases ok <;> simp <;> omega
      t1 := by have := h.t1; have := h.pt; show 1 ≤ (if ok = true then t else n.pterm); cases ok <;> simp <;> omega
      mem := h.mem
      hd := h.hd
      gd := h.gd
      vgood := h.vgood
      lt := Nat.le_trans h.lt (Nat.le_of_lt ht)
      gh := h.gh
      rh := h.rh
      vrel := h.vrel
      vmark := h.vmark.imp (fun d op _ hp => hp.upd (Nat.le_of_lt ht)
        (by intro he; simp at he; omega) (by intro hr; simp at hr))
      lead := by intro hr; simp at hr
      el := fun r hr hn => ⟨Nat.le_trans (h.el r hr hn).1 hp, by intro hr; simp at hr⟩
      v1 := fun v hv hn => by
        have := h.v1 v hv hn
        cases ok
        · simpa using this
        · left; show v.term < t; omega
      vmem := by
        intro he c hc
        cases ok
        · simp at he; omega
        · simp at hc
      pv := by
        intro c hc
        cases ok
        · simp at hc ⊢; exact h.pv c hc
        · simp at hc
      mv := by intro c hc; simp at hc
      elec := fun T hT => ⟨by have := (h.elec T hT).1; show T ≤ t; omega, by
        intro he
        have := (h.elec T hT).1
        simp at he; omega⟩
      cand := by intro hr; simp at hr
      vf := h.vf
      cl := h.cl
      cc := h.cc.mono (Nat.le_of_lt ht)
      ap := h.ap
      ac := h.ac.mono (Nat.le_of_lt ht)
      sn := h.sn
      sp := h.sp
      cs := h.cs.mono hp
      sa := h.sa
      dlc := fun K hK => ⟨(h.dlc K hK).1.mono (Nat.le_of_lt ht), (h.dlc K hK).2⟩
      dlf := fun _ => rfl
      smi := h.smi }
  · rw [if_neg ht]
    exact {
      pt := h.pt
      t1 := h.t1
      mem := h.mem
      hd := h.hd
      gd := h.gd
      vgood := h.vgood
      lt := h.lt
      gh := h.gh
      rh := h.rh
      vrel := h.vrel
      vmark := h.vmark.imp (fun d op _ hp => hp.upd (Nat.le_refl _)
        (by intro _; exact List.prefix_refl _) (by intro hr; simp at hr))
      lead := by intro hr; simp at hr
      el := fun r hr hn => ⟨(h.el r hr hn).1, by intro hr; simp at hr⟩
      v1 := h.v1
      vmem := h.vmem
      pv := h.pv
      mv := h.mv
      elec := h.elec
      cand := by intro hr; simp at hr
      vf := h.vf
      cl := h.cl
      cc := h.cc
      ap := h.ap
      ac := h.ac
      sn := h.sn
      sp := h.sp
      cs := h.cs
      sa := h.sa
      dlc := h.dlc
      dlf := fun _ => rfl
      smi := h.smi }

@[simp] theorem stepDown_role (n : NodeSt N D) (t : Nat) (ok : Bool) :
    (stepDown n t ok).role = .follower := by
  unfold stepDown; split <;> rfl

@[simp] theorem stepDown_log (n : NodeSt N D) (t : Nat) (ok : Bool) :
    (stepDown n t ok).log = n.log := by
  unfold stepDown; split <;> rfl

@[simp] theorem stepDown_applied (n : NodeSt N D) (t : Nat) (ok : Bool) :
    (stepDown n t ok).applied = n.applied := by
  unfold stepDown; split <;> rfl

theorem stepDown_term (n : NodeSt N D) (t : Nat) (ok : Bool) :
    (stepDown n t ok).term = max n.term t := by
  unfold stepDown
  split
  · show t = _; omega
  · show n.term = _; omega

theorem NodeInv.electStart {c0 : Conf N} {g : Glob N D} {i : N} {n : NodeSt N D}
    (h : NodeInv c0 g i n) (hdl : n.dl = none) : NodeInv c0 g i (electStart c0 i n) where
  pt := by have := h.pt; show n.pterm ≤ n.term + 1; omega
  t1 := h.t1
  mem := h.mem
  hd := h.hd
  gd := h.gd
  vgood := h.vgood
  lt := Nat.le_trans h.lt (Nat.le_succ _)
  gh := h.gh
  rh := h.rh
  vrel := h.vrel
  vmark := h.vmark.imp (fun d op _ hp => hp.upd (Nat.le_succ _)
    (by intro he; simp [Raft.electStart] at he) (by intro hr; simp [Raft.electStart] at hr))
  lead := by intro hr; simp [Raft.electStart] at hr
  el := fun r hr hn => by
    have h1 := (h.el r hr hn).1
    have h2 := h.pt
    exact ⟨h1, fun _ => by show r.term < n.term + 1; omega⟩
  v1 := h.v1
  vmem := by
    intro he
    have := h.pt
    simp [Raft.electStart] at he; omega
  pv := h.pv
  mv := by
    intro c hc hne
    simp [Raft.electStart] at hc
    exact absurd hc.symm hne
  elec := by
    intro T hT
    simp [Raft.electStart] at hT
    subst hT
    exact ⟨Nat.le_refl _, fun _ => ⟨rfl, by have := h.pt; show n.pterm < n.term + 1; omega⟩⟩
  cand := by
    intro _
    have := h.glog.2
    refine ⟨?_, rfl, ?_⟩
    · show lastTerm n.log < n.term + 1; omega
    · intro hr; simp [Raft.electStart] at hr
  vf := h.vf
  cl := h.cl
  cc := h.cc.mono (Nat.le_succ _)
  ap := h.ap
  ac := h.ac.mono (Nat.le_succ _)
  sn := h.sn
  sp := h.sp
  cs := h.cs
  sa := h.sa
  dlc := fun K hK => ⟨(h.dlc K hK).1.mono (Nat.le_succ _), (h.dlc K hK).2⟩
  dlf := fun hne => absurd hdl hne
  smi := h.smi

/-- Only the vote frames change. -/
theorem NodeInv.vframe {c0 : Conf N} {g : Glob N D} {i : N} {n : NodeSt N D}
    (h : NodeInv c0 g i n) (fs : List (VFrame N))
    (hf : ∀ f ∈ fs,
      Msg.rv f.reqTerm f.cand f.claim ∈ g.msgs ∧ f.savedTerm ≤ f.reqTerm ∧ f.cand ≠ i) :
    NodeInv c0 g i { n with vframes := fs } :=
  { h with vf := hf, vmark := h.vmark.imp (fun d op _ hp => hp.upd (Nat.le_refl _)
      (by intro _; exact List.prefix_refl _) (by intro hr; exact ⟨hr, rfl⟩)) }

/-! ### Changing the history -/

/-- What must be known of a message when it is sent. -/
def MsgOK (g : Glob N D) : Msg N D → Prop
  | .rv t c cl => ∃ O ∈ g.hist c, cl = lastId O ∧ 2 ≤ t
  | .vr t v c => ∃ k, ⟨t, v, c, k⟩ ∈ g.votes
  | .ae t prev pt es c => AeOK g t prev pt es c
  | .ar t v m => ArOK g t v m
  | .is t K => Committed g t K

theorem ext_send (i : N) (g : Glob N D) (m : Msg N D) : Ext i g (g.send m) where
  msgs := fun _ h => by simp [Glob.send, h]
  hist := fun _ _ h => h
  histj := fun _ _ => rfl
  created := fun _ h => h
  elections := ⟨[], by simp [Glob.send], by simp⟩
  votes := fun _ h => h
  votesn := fun _ h => Or.inl h
  acks := fun _ h => h
  commits := fun _ h => h

theorem GInv.send {c0 : Conf N} {g : Glob N D} (h : GInv c0 g) {m : Msg N D} (hm : MsgOK g m) :
    GInv c0 (g.send m) where
  chain := h.chain
  closed := h.closed
  mono := h.mono
  origin := h.origin
  elog := h.elog
  elt := h.elt
  change := h.change
  el := h.el
  vuniq := h.vuniq
  vk := h.vk
  vinv := h.vinv
  ak := h.ak
  rv := fun t c cl hx => by
    simp only [Glob.send, List.mem_cons] at hx
    rcases hx with hx | hx
    · subst hx; exact hm
    · exact h.rv t c cl hx
  vr := fun t v c hx => by
    simp only [Glob.send, List.mem_cons] at hx
    rcases hx with hx | hx
    · subst hx; exact hm
    · exact h.vr t v c hx
  ae := fun t prev pt es c hx => by
    simp only [Glob.send, List.mem_cons] at hx
    rcases hx with hx | hx
    · subst hx; exact hm
    · exact h.ae t prev pt es c hx
  ar := fun t v k hx => by
    simp only [Glob.send, List.mem_cons] at hx
    rcases hx with hx | hx
    · subst hx; exact hm
    · exact h.ar t v k hx
  is := fun t K hx => by
    simp only [Glob.send, List.mem_cons] at hx
    rcases hx with hx | hx
    · subst hx; exact hm
    · exact h.is t K hx
  com := h.com
  app := h.app
  euniq := h.euniq

theorem ext_voted (i : N) (g : Glob N D) (t : Nat) (c : N) : Ext i g (g.voted t i c) where
  msgs := fun _ h => h
  hist := fun _ _ h => h
  histj := fun _ _ => rfl
  created := fun _ h => h
  elections := ⟨[], by simp [Glob.voted], by simp⟩
  votes := fun _ h => by simp [Glob.voted, h]
  votesn := fun v h => by
    simp only [Glob.voted, List.mem_cons] at h
    rcases h with h | h
    · right; rw [h]
    · exact Or.inl h
  acks := fun _ h => h
  commits := fun _ h => h

theorem Ext.trans {i : N} {g g' g'' : Glob N D} (h1 : Ext i g g') (h2 : Ext i g' g'') :
    Ext i g g'' where
  msgs := fun m h => h2.msgs m (h1.msgs m h)
  hist := fun j O h => h2.hist j O (h1.hist j O h)
  histj := fun j hj => by rw [h2.histj j hj, h1.histj j hj]
  created := fun K h => h2.created K (h1.created K h)
  elections := by
    obtain ⟨e1, a1, b1⟩ := h1.elections
    obtain ⟨e2, a2, b2⟩ := h2.elections
    refine ⟨e1 ++ e2, by rw [a2, a1, List.append_assoc], ?_⟩
    intro r hr
    rcases List.mem_append.mp hr with h | h
    · exact b1 r h
    · exact b2 r h
  votes := fun v h => h2.votes v (h1.votes v h)
  votesn := fun v h => by
    rcases h2.votesn v h with h | h
    · exact h1.votesn v h
    · exact Or.inr h
  acks := fun a h => h2.acks a (h1.acks a h)
  commits := fun K h => h2.commits K (h1.commits K h)

theorem GInv.voted {c0 : Conf N} {g : Glob N D} (h : GInv c0 g) {t : Nat} {i c : N}
    (hu : ∀ v ∈ g.votes, v.term = t → v.voter = i → v.cand = c)
    (hv : ∀ t' M, ⟨t', i, M⟩ ∈ g.acks → t' < t → ∀ K, K ≠ [] → K <+: M →
      (∃ O ∈ g.hist c, K <+: O) ∨ Culprit g.elections K) : GInv c0 (g.voted t i c) where
  chain := h.chain
  closed := h.closed
  mono := h.mono
  origin := h.origin
  elog := h.elog
  elt := h.elt
  change := h.change
  el := fun J r hJ => by
    obtain ⟨S, h1, h2, h3⟩ := h.el J r hJ
    refine ⟨S, h1, ?_, h3⟩
    intro v hv
    obtain ⟨k, hk⟩ := h2 v hv
    exact ⟨k, by simp [Glob.voted, hk]⟩
  vuniq := by
    intro v hv v' hv' ht hn
    simp only [Glob.voted, List.mem_cons] at hv hv'
    rcases hv with hv | hv <;> rcases hv' with hv' | hv'
    · rw [hv, hv']
    · subst hv; exact (hu v' hv' ht.symm hn.symm).symm
    · subst hv'; exact hu v hv ht hn
    · exact h.vuniq v hv v' hv' ht hn
  vk := by
    intro v hv
    simp only [Glob.voted, List.mem_cons] at hv
    rcases hv with hv | hv
    · rw [hv]; exact Nat.le_refl _
    · exact h.vk v hv
  vinv := by
    intro v hv' t' M hM hlt K hK hKM
    simp only [Glob.voted, List.mem_cons] at hv'
    rcases hv' with hv' | hv'
    · subst hv'
      rcases hv t' M hM hlt K hK hKM with h' | h'
      · exact Or.inl h'
      · right
        show Culprit (g.elections.take g.elections.length) K
        rw [List.take_length]; exact h'
    · exact h.vinv v hv' t' M hM hlt K hK hKM
  ak := h.ak
  rv := h.rv
  vr := fun t v c hx => by
    obtain ⟨k, hk⟩ := h.vr t v c hx
    exact ⟨k, by simp [Glob.voted, hk]⟩
  ae := h.ae
  ar := h.ar
  is := h.is
  com := h.com
  app := h.app
  euniq := h.euniq

theorem ext_held (i : N) (g : Glob N D) (l : Log N D) : Ext i g (g.held i l) where
  msgs := fun _ h => h
  hist := fun j O h => by
    by_cases hj : j = i
    · subst hj; simp [Glob.held, updF, h]
    · simp [Glob.held, updF, hj, h]
  histj := fun j hj => by simp [Glob.held, updF, hj]
  created := fun _ h => h
  elections := ⟨[], by simp [Glob.held], by simp⟩
  votes := fun _ h => h
  votesn := fun _ h => Or.inl h
  acks := fun _ h => h
  commits := fun _ h => h

theorem GInv.held {c0 : Conf N} {g : Glob N D} (h : GInv c0 g) (i : N) (l : Log N D) :
    GInv c0 (g.held i l) where
  chain := h.chain
  closed := h.closed
  mono := h.mono
  origin := h.origin
  elog := h.elog
  elt := h.elt
  change := h.change
  el := h.el
  vuniq := h.vuniq
  vk := h.vk
  vinv := by
    intro v hv' t' M hM hlt K hK hKM
    rcases h.vinv v hv' t' M hM hlt K hK hKM with ⟨O, hO, hO'⟩ | h'
    · exact Or.inl ⟨O, (ext_held i g l).hist _ O hO, hO'⟩
    · exact Or.inr h'
  ak := by
    intro t v M hM
    obtain ⟨h0, ⟨O, hO, hO'⟩, h2⟩ := h.ak t v M hM
    exact ⟨h0, ⟨O, (ext_held i g l).hist _ O hO, hO'⟩, h2⟩
  rv := fun t c cl hx => by
    obtain ⟨O, hO, hO'⟩ := h.rv t c cl hx
    exact ⟨O, (ext_held i g l).hist _ O hO, hO'⟩
  vr := h.vr
  ae := h.ae
  ar := h.ar
  is := h.is
  com := h.com
  app := h.app
  euniq := h.euniq

theorem ext_ack (i : N) (g : Glob N D) (t : Nat) (l : Log N D) : Ext i g (g.ack t i l) where
  msgs := fun _ h => by simp [Glob.ack, h]
  hist := fun _ _ h => h
  histj := fun _ _ => rfl
  created := fun _ h => h
  elections := ⟨[], by simp [Glob.ack], by simp⟩
  votes := fun _ h => h
  votesn := fun _ h => Or.inl h
  acks := fun _ h => by simp [Glob.ack, h]
  commits := fun _ h => h

theorem GInv.ack {c0 : Conf N} {g : Glob N D} (h : GInv c0 g) {t : Nat} {i : N} {l : Log N D}
    (hne : l ≠ []) (hv : ∀ v ∈ g.votes, v.voter = i → v.term ≤ t) (hh : ∃ O ∈ g.hist i, l <+: O)
    (hl : ∃ L ∈ g.created, lastTerm L = t ∧ l <+: L) : GInv c0 (g.ack t i l) where
  chain := h.chain
  closed := h.closed
  mono := h.mono
  origin := h.origin
  elog := h.elog
  elt := h.elt
  change := fun K0 e hc hcc => by
    obtain ⟨Q, h1, h2, h3, h4, h5⟩ := h.change K0 e hc hcc
    exact ⟨Q, h1, h2, h3, h4.ext (ext_ack i g t l).created (ext_ack i g t l).acks, h5⟩
  el := fun J r hJ => by
    obtain ⟨S, h1, h2, h3⟩ := h.el J r hJ
    refine ⟨S, h1, h2, ?_⟩
    intro v hv' t' M hM hlt
    simp only [Glob.ack, List.mem_cons, AckRec.mk.injEq] at hM
    rcases hM with ⟨rfl, rfl, rfl⟩ | hM
    · obtain ⟨k, hk⟩ := h2 v hv'
      have := hv _ hk rfl
      simp at this; omega
    · exact h3 v hv' t' M hM hlt
  vuniq := h.vuniq
  vk := h.vk
  vinv := by
    intro v hv' t' M hM hlt
    simp only [Glob.ack, List.mem_cons, AckRec.mk.injEq] at hM
    rcases hM with ⟨rfl, h2, rfl⟩ | hM
    · have := hv v hv' h2
      omega
    · exact h.vinv v hv' t' M hM hlt
  ak := by
    intro t' v M hM
    simp only [Glob.ack, List.mem_cons, AckRec.mk.injEq] at hM
    rcases hM with ⟨rfl, rfl, rfl⟩ | hM
    · exact ⟨hne, hh, hl⟩
    · exact h.ak t' v M hM
  rv := fun t c cl hx => by
    simp only [Glob.ack, List.mem_cons] at hx
    rcases hx with hx | hx
    · simp at hx
    · exact h.rv t c cl hx
  vr := fun t v c hx => by
    simp only [Glob.ack, List.mem_cons] at hx
    rcases hx with hx | hx
    · simp at hx
    · exact h.vr t v c hx
  ae := fun t prev pt es c hx => by
    simp only [Glob.ack, List.mem_cons] at hx
    rcases hx with hx | hx
    · simp at hx
    · exact h.ae t prev pt es c hx
  ar := fun t' v k hx => by
    simp only [Glob.ack, List.mem_cons, Msg.ar.injEq] at hx
    rcases hx with ⟨rfl, rfl, rfl⟩ | hx
    · exact ⟨l, rfl, hne, hl, Or.inl (by simp [Glob.ack])⟩
    · exact (h.ar t' v k hx).ext (ext_ack i g t l)
  is := fun t' K hx => by
    simp only [Glob.ack, List.mem_cons] at hx
    rcases hx with hx | hx
    · simp at hx
    · exact h.is t' K hx
  com := fun K hK => by
    obtain ⟨h1, K', h2, h3⟩ := h.com K hK
    exact ⟨h1, K', h2.ext (ext_ack i g t l).created (ext_ack i g t l).acks, h3⟩
  app := h.app
  euniq := h.euniq

/-! ### Holding a snapshot -/

/-- A log that the storage holds from now on, when the node's log still has it. -/
theorem NodeInv.held {c0 : Conf N} {g : Glob N D} {i : N} {n : NodeSt N D} {l : Log N D}
    (h : NodeInv c0 g i n) (hgl : Good g l)
    (hl : Rel g.elections l (snapMerge n.snap n.disk)) : NodeInv c0 (g.held i l) i n := by
  have hcase : ∀ O ∈ (g.held i l).hist i, O = l ∨ O ∈ g.hist i := by
    intro O hO
    simpa [Glob.held, updF] using hO
  have hE := ext_held i g l
  exact { h with
    hd := hE.hist i _ h.hd
    gh := fun O hO => by
      rcases hcase O hO with h' | h'
      · rw [h']; exact hgl
      · exact h.gh O h'
    rh := fun O hO => by
      rcases hcase O hO with h' | h'
      · rw [h']; exact hl
      · exact h.rh O h'
    vmark := h.vmark.imp (fun d op _ hp => hp.ext hE) }

theorem vok_loadOps {Q : Log N D → Op N D → Prop} {P d : Log N D} (h : Q d (.snap P)) :
    VOk Q d (loadOps P) := by
  unfold loadOps; split
  · trivial
  · exact ⟨h, trivial⟩

theorem NodeInv.restart {c0 : Conf N} {g : Glob N D} {i : N} {n : NodeSt N D} (hg : GBase c0 g)
    (h : NodeInv c0 g i n) : NodeInv c0 (g.held i n.psnap) i (restart n) := by
  have hPg := (h.cs.good hg).1
  have hmp : n.psnap <+: snapMerge n.psnap n.disk := merge_pref hg hPg h.gd
  have hmg : Good g (snapMerge n.psnap n.disk) := merge_good hPg h.gd
  have hrh : ∀ O ∈ g.hist i, Rel g.elections O (snapMerge n.psnap n.disk) :=
    fun O hO => (h.rh O hO).trans (merge_rel3 hg h.cs h.gd h.sp)
  have hvr := merge_rel hg h.cs h.gd
  have htk : (snapMerge n.psnap n.disk).take n.psnap.length = n.psnap := (prefix_take hmp).symm
  have key : ∀ n', n' = Raft.restart n → NodeInv c0 g i n' → NodeInv c0 (g.held i n.psnap) i n' := by
    intro n' he hn'
    apply hn'.held hPg
    subst he
    intro K _ hK
    exact Or.inl (hK.trans hmp)
  apply key _ rfl
  generalize hW : snapMerge n.psnap n.disk = W at *
  by_cases hb : n.pterm < lastTerm W
  · have hr : Raft.restart n = { n with
        term := lastTerm W + 1, vote := none, role := .follower,
        pterm := lastTerm W + 1, pvote := none, log := W, queue := loadOps n.psnap, commit := 0,
        applied := n.psnap.length, snap := n.psnap, dl := none, sm := n.psnap,
        elect := none, ready := false, vframes := [] } := by
      simp [Raft.restart, hW, hb]
    rw [hr]
    have hle : n.pterm ≤ lastTerm W + 1 := by omega
    exact {
      pt := Nat.le_refl _
      t1 := by first | exact h.t1 | exact Nat.succ_le_succ (Nat.zero_le _)
      mem := by show W = drain n.disk (loadOps n.psnap); rw [drain_loadOps, hW]
      hd := h.hd
      gd := h.gd
      vgood := vok_loadOps (by show Good g (snapMerge n.psnap n.disk); rw [hW]; exact hmg)
      lt := Nat.le_succ _
      gh := h.gh
      rh := by show ∀ O ∈ g.hist i, Rel g.elections O (snapMerge n.psnap n.disk); rw [hW]; exact hrh
      vrel := vok_loadOps (by
        show Rel g.elections n.disk (snapMerge n.psnap n.disk); rw [hW]; exact hvr)
      vmark := vok_loadOps trivial
      lead := by intro hr; simp at hr
      el := fun r hr hn => ⟨by have := (h.el r hr hn).1; show r.term ≤ lastTerm W + 1; omega,
        by intro hr; simp at hr⟩
      v1 := fun v hv hn => by
        left
        show v.term < lastTerm W + 1
        rcases h.v1 v hv hn with h' | h' <;> omega
      vmem := by intro _ c hc; simp at hc
      pv := by intro c hc; simp at hc
      mv := by intro c hc; simp at hc
      elec := by intro T hT; simp at hT
      cand := by intro hr; simp at hr
      vf := by intro f hf; simp at hf
      cl := Nat.zero_le _
      cc := by left; simp
      ap := hmp.length_le
      ac := by
        show Committed g (lastTerm W + 1) (W.take n.psnap.length)
        rw [htk]; exact h.cs.mono hle
      sn := hmp
      sp := List.prefix_refl _
      cs := h.cs.mono hle
      sa := Nat.le_refl _
      dlc := by intro K hK; simp at hK
      dlf := fun _ => rfl
      smi := htk.symm }
  · have hr : Raft.restart n = { n with
        term := n.pterm, vote := n.pvote, role := .follower,
        log := W, queue := loadOps n.psnap, commit := 0,
        applied := n.psnap.length, snap := n.psnap, dl := none, sm := n.psnap,
        elect := none, ready := false, vframes := [] } := by
      simp [Raft.restart, hW, hb]
    rw [hr]
    exact {
      pt := Nat.le_refl _
      t1 := by first | exact h.t1 | exact Nat.succ_le_succ (Nat.zero_le _)
      mem := by show W = drain n.disk (loadOps n.psnap); rw [drain_loadOps, hW]
      hd := h.hd
      gd := h.gd
      vgood := vok_loadOps (by show Good g (snapMerge n.psnap n.disk); rw [hW]; exact hmg)
      lt := by show lastTerm W ≤ n.pterm; omega
      gh := h.gh
      rh := by show ∀ O ∈ g.hist i, Rel g.elections O (snapMerge n.psnap n.disk); rw [hW]; exact hrh
      vrel := vok_loadOps (by
        show Rel g.elections n.disk (snapMerge n.psnap n.disk); rw [hW]; exact hvr)
      vmark := vok_loadOps trivial
      lead := by intro hr; simp at hr
      el := fun r hr hn => ⟨(h.el r hr hn).1, by intro hr; simp at hr⟩
      v1 := h.v1
      vmem := by intro _ c hc; exact hc
      pv := h.pv
      mv := by intro c hc _; exact h.pv c hc
      elec := by intro T hT; simp at hT
      cand := by intro hr; simp at hr
      vf := by intro f hf; simp at hf
      cl := Nat.zero_le _
      cc := by left; simp
      ap := hmp.length_le
      ac := by
        show Committed g n.pterm (W.take n.psnap.length)
        rw [htk]; exact h.cs
      sn := hmp
      sp := List.prefix_refl _
      cs := h.cs
      sa := Nat.le_refl _
      dlc := by intro K hK; simp at hK
      dlf := fun _ => rfl
      smi := htk.symm }

theorem restart_role (n : NodeSt N D) : (restart n).role = .follower := rfl

end Braft.Raft
