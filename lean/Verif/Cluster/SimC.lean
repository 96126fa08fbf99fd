import Verif.Cluster.SimB
/-
Simulation of a leader's appends and commits, of the disk queue, of the state machine and of
snapshots.
-/
set_option linter.unusedVariables false
set_option linter.unusedSimpArgs false
set_option linter.unusedSectionVars false

namespace Braft.Cl
open Braft.Raft
variable {N D : Type} [DecidableEq N] [DecidableEq D] {c0 : Conf N} {g : Glob N D}
  {ev : List (Ev N D)} {i : N} {c : Srv N D} {n : NodeSt N D}

/-- `RFOk` only looks at the log and the committed index. -/
theorem RFOk.congr {c' : Srv N D} {f : RFrame N} (h : RFOk g c f) (hl : c'.log = c.log)
    (hb : c.bb.lastCommitted ≤ c'.bb.lastCommitted) : RFOk g c' f := by
  cases f with
  | ack => exact h
  | send t to prev pt cm =>
    obtain ⟨h1, h2, h3⟩ := h
    exact ⟨by rw [hl]; exact h1, by rw [hl]; exact h2, Nat.le_trans h3 hb⟩

/-- Leadership transfer starts or ends. -/
theorem NR.leading (h : NR c0 g ev i c n) {st : St} (h1 : c.state.leads = true)
    (h2 : st.leads = true) : NR c0 g ev i { c with state := st } n :=
  { h with
    role := by
      left
      rw [(leads_role h).mp h1]
      cases st <;> first | rfl | cases h2
    el := fun f hf => (h.el f hf).congr rfl rfl rfl (by rw [h1]; exact h2) rfl rfl
    cand := fun hc => by
      have hc : st = .candidate := hc
      rw [hc] at h2; cases h2
    rpc := fun hc => by
      have hc : st = .candidate := hc
      rw [hc] at h2; cases h2
    ask := fun hc => by
      have hc : st = .candidate := hc
      rw [hc] at h2; cases h2
    pend := fun hc => by
      have hc : st = .follower := hc
      rw [hc] at h2; cases h2
    lead := fun hx => { h.lead h1 with }
    fol := fun hx => by
      have hx : st.leads = false := hx
      rw [h2] at hx; cases hx
    me := fun _ => h.me h1
    repl := fun f hf => by
      refine ⟨(h.repl f hf).1, fun hc => ?_, fun _ x2 => ((h.repl f hf).2.2 h1 x2).congr rfl (Nat.le_refl _)⟩
      rw [(leads_role h).mp h1] at hc; cases hc }

theorem take_append_right {l es : Log N D} {k : Nat} (h : l.length < k) :
    (l ++ es).take k = l ++ es.take (k - l.length) := by
  rw [List.take_append]
  have : l.take k = l := List.take_of_length_le (by omega)
  rw [this]

theorem sim_apply {a : Sys N D} (hi : Inv c0 a) (h : NR c0 a.g ev i c (a.node i)) (ds : List D)
    (hne : ds ≠ []) (hl : c.state.leads = true) :
    Tr c0 i ev a (sAppendOwn c (confOf c0 c.log) (ds.map (fun d => ⟨c.term, .data d⟩)), [], []) := by
  have hsim : Sim1 c0 i a (eff c0 a (.propose i ds)) :=
    sim_act i _ rfl ⟨(leads_role h).mp hl, hne⟩
  refine ⟨_, hsim, ?_, by simp, by simp⟩
  have hn : (eff c0 a (.propose i ds)).node i =
      appendOwn (a.node i) (ds.map (fun d => ⟨c.term, .data d⟩)) := by
    simp [eff, sysAppend, updF_same, h.term]
  rw [hn]
  have h1 := h.mono hsim.sub (fun e he => he)
  refine h1.appendOwn (by simpa using hne) hl ?_ ?_
  · intro e he
    obtain ⟨d, _, hd⟩ := List.mem_map.mp he
    rw [← hd]
  · intro k k1 k2
    rw [take_append_right k1]
    apply confOf_datas
    intro e he
    obtain ⟨d, _, hd⟩ := List.mem_map.mp (List.mem_of_mem_take he)
    rw [← hd]; rfl

theorem sim_changeConf {a : Sys N D} (hi : Inv c0 a) (h : NR c0 a.g ev i c (a.node i)) (cf : Conf N)
    (hl : c.state.leads = true) (hc : lastConfIdx c.log ≤ c.bb.lastCommitted)
    (hs : confStepOk (confOf c0 c.log) cf = true) :
    Tr c0 i ev a (sAppendOwn c cf [⟨c.term, .conf cf⟩], [], []) := by
  have hsim : Sim1 c0 i a (eff c0 a (.changeConf i cf)) :=
    sim_act i _ rfl ⟨(leads_role h).mp hl, by rw [h.log, h.commit]; exact hc, by rw [h.log]; exact hs⟩
  refine ⟨_, hsim, ?_, by simp, by simp⟩
  have hn : (eff c0 a (.changeConf i cf)).node i = appendOwn (a.node i) [⟨c.term, .conf cf⟩] := by
    simp [eff, sysAppend, updF_same, h.term]
  rw [hn]
  have h1 := h.mono hsim.sub (fun e he => he)
  refine h1.appendOwn (by simp) hl (by simp) ?_
  intro k k1 k2
  have e : List.take k (c.log ++ [(⟨c.term, .conf cf⟩ : Entry N D)]) = c.log ++ [⟨c.term, .conf cf⟩] :=
    List.take_of_length_le (by rw [List.length_append, List.length_singleton]; omega)
  rw [e]; exact confOf_snoc _ _ _ _

/-! ### Replicators -/

/-- Changes of the replicators' pending accesses. -/
theorem NR.replTo (h : NR c0 g ev i c n) {rs : List (RFrame N)}
    (hr : ∀ f ∈ rs, f ∈ c.repl ∨ (c.state.leads = true ∧ f.term ≤ c.term ∧ RFOk g c f)) :
    NR c0 g ev i { c with repl := rs } n :=
  { h with
    el := fun f hf => (h.el f hf).congr rfl rfl rfl rfl rfl rfl
    lead := fun hx => { h.lead hx with }
    repl := fun f hf => by
      rcases hr f hf with h1 | ⟨h1, h2, h3⟩
      · exact ⟨(h.repl f h1).1, (h.repl f h1).2.1,
          fun x1 x2 => ((h.repl f h1).2.2 x1 x2).congr rfl (Nat.le_refl _)⟩
      · refine ⟨h2, fun hc => ?_, fun _ _ => h3.congr rfl (Nat.le_refl _)⟩
        rw [(leads_role h).mp h1] at hc; cases hc }

theorem NR.replErase (h : NR c0 g ev i c n) (f : RFrame N) :
    NR c0 g ev i { c with repl := c.repl.erase f } n :=
  h.replTo (fun f' hf => Or.inl (List.mem_of_mem_erase hf))

theorem sim_replSend {a : Sys N D} (h : NR c0 a.g ev i c (a.node i)) (to : N) (prev : Nat)
    (hl : c.state.leads = true) (hp : prev ≤ c.log.length) :
    Tr c0 i ev a (sReplSend c to prev, [], []) := by
  refine Tr.stay (h.replTo (fun f hf => ?_))
  rcases List.mem_cons.mp hf with hf | hf
  · right; subst hf; exact ⟨hl, Nat.le_refl _, hp, rfl, Nat.le_refl _⟩
  · exact Or.inl hf

theorem sim_replRead {a : Sys N D} (h : NR c0 a.g ev i c (a.node i)) (t : Nat) (to : N)
    (prev pt cm cnt : Nat) (hf : RFrame.send t to prev pt cm ∈ c.repl)
    (hl : c.state.leads = true) (ht : c.term = t) :
    Tr c0 i ev a (sReplRead i c (.send t to prev pt cm) cnt) := by
  obtain ⟨h1, h2, h3⟩ := (h.repl _ hf).2.2 hl ht.symm
  have hsim : Sim1 c0 i a (eff c0 a (.sendAE i prev cnt cm)) :=
    sim_act i _ rfl ⟨(leads_role h).mp hl, by rw [h.log]; exact h1, by rw [h.commit]; exact h3⟩
  refine ⟨_, hsim, ?_, ?_, by simp [sReplRead]⟩
  · exact (h.replErase _).mono hsim.sub (fun e he => by simpa [sReplRead] using he)
  · intro m hm
    simp only [sReplRead, List.mem_singleton] at hm
    subst hm
    refine ⟨?_, ?_⟩
    · simp [eff, Glob.send, h.term, h.log, h2, ht]
    · simp only [sReplRead, List.nil_append]
      rw [← ht]; exact h.me hl

theorem sim_replRes {a : Sys N D} (h : NR c0 a.g ev i c (a.node i)) (who : N) (first upTo : Nat)
    (hl : c.state.leads = true) (hm : Msg.ar c.term who upTo ∈ a.g.msgs) :
    Tr c0 i ev a (sReplRes c who first upTo, [], []) := by
  refine Tr.stay (h.replTo (fun f hf => ?_))
  rcases List.mem_cons.mp hf with hf | hf
  · right; subst hf; exact ⟨hl, Nat.le_refl _, hm⟩
  · exact Or.inl hf

/-! ### Commits -/

/-- A leader's ballot box and committed index change. -/
theorem NR.bb (h : NR c0 g ev i c n) (hl : c.state.leads = true) (b : BallotBox N Unit)
    (hb : LB c0 g { c with bb := b }) (hc : c.bb.lastCommitted ≤ b.lastCommitted) :
    NR c0 g ev i { c with bb := b } { n with commit := b.lastCommitted } :=
  { h with
    commit := rfl
    el := fun f hf => (h.el f hf).congr rfl rfl rfl rfl rfl rfl
    lead := fun _ => hb
    fol := fun hx => by
      have hx : c.state.leads = false := hx
      rw [hl] at hx; cases hx
    repl := fun f hf => ⟨(h.repl f hf).1, (h.repl f hf).2.1,
      fun x1 x2 => ((h.repl f hf).2.2 x1 x2).congr rfl hc⟩ }

theorem NR.bb_same (h : NR c0 g ev i c n) (hl : c.state.leads = true) (b : BallotBox N Unit)
    (hb : LB c0 g { c with bb := b }) (hc : b.lastCommitted = c.bb.lastCommitted) :
    NR c0 g ev i { c with bb := b } n := by
  have := h.bb hl b hb (Nat.le_of_eq hc.symm)
  rw [hc, ← h.commit] at this
  exact this

/-- `commit_at` of a leader for an acknowledged range. -/
theorem sim_commitAt {a : Sys N D} (hi : Inv c0 a) (h : NR c0 a.g ev i c (a.node i))
    (first last : Nat) (v : N) (hl : c.state.leads = true) (hm : Msg.ar c.term v last ∈ a.g.msgs) :
    Tr c0 i ev a ({ c with bb := (c.bb.commitAt first last v).1 }, [], []) := by
  have hb := h.lead hl
  have hp := hb.pos
  unfold BallotBox.commitAt
  by_cases k0 : c.bb.pending = 0
  · rw [if_pos k0]; exact Tr.stay h
  rw [if_neg k0]
  by_cases k1 : last < c.bb.pending
  · rw [if_pos k1]; exact Tr.stay h
  rw [if_neg k1]
  by_cases k2 : c.bb.pending + c.bb.queue.length ≤ last
  · rw [if_pos k2]; exact Tr.stay h
  rw [if_neg k2]
  obtain ⟨S, s1, s2⟩ := hb.bal
  have hlen := BallotBox.grantRange_length (max c.bb.pending first) last v c.bb.pending c.bb.queue {} 0
  have hlc := BallotBox.grantRange_lc (max c.bb.pending first) last v c.bb.pending c.bb.queue {} 0
  have hinv := BallotBox.grantRange_inv (max c.bb.pending first) last v
    (fun k => ((confOf c0 (c.log.take k)).peers, oldOf (confOf c0 (c.log.take k)))) S
    (fun k => (confOf c0 (c.log.take k)).nd) (fun k oc hoc => oldOf_nd oc hoc)
    c.bb.pending c.bb.queue {} 0 s1
  dsimp only at hlc hinv ⊢
  generalize BallotBox.grantRange (max c.bb.pending first) last v c.bb.pending c.bb.queue {} 0 = r
    at hlen hlc hinv ⊢
  obtain ⟨q, lc⟩ := r
  dsimp only at hlen hlc hinv ⊢
  have hS : ∀ k p, (S k p || (decide (max c.bb.pending first ≤ k ∧ k ≤ last) && p == v)) = true →
      ∃ u, k ≤ u ∧ Msg.ar c.term p u ∈ a.g.msgs := by
    intro k p hkp
    simp only [Bool.or_eq_true, Bool.and_eq_true, decide_eq_true_eq, beq_iff_eq] at hkp
    rcases hkp with hkp | ⟨hkp, e⟩
    · exact s2 k p hkp
    · subst e; exact ⟨last, hkp.2, hm⟩
  by_cases k3 : lc = 0
  · rw [if_pos k3]
    refine Tr.stay (h.bb_same hl _ ?_ rfl)
    exact {
      pos := hp
      len := by show c.bb.pending + q.length = _; rw [hlen]; exact hb.len
      lc := hb.lc
      tm := hb.tm
      bal := ⟨_, hinv, hS⟩ }
  rw [if_neg k3]
  rcases hlc with ⟨e, _⟩ | ⟨k, hk, e1, e2, e3, e4, _⟩
  · exact absurd e k3
  subst e1
  have hblen := hb.len
  have hblc := hb.lc
  have hQ := quorum_iff ((Ballot.inv_granted_iff (hinv k hk)).mp e4)
  have hsim : Sim1 c0 i a (eff c0 a (.commit i (c.bb.pending + k) (((confOf c0 (c.log.take
      (c.bb.pending + k))).peers ++ (confOf c0 (c.log.take (c.bb.pending + k))).old).filter
      (fun p => (S (c.bb.pending + k) p || (decide (max c.bb.pending first ≤ c.bb.pending + k ∧
        c.bb.pending + k ≤ last) && p == v)))))) := by
    refine sim_act i _ rfl ⟨(leads_role h).mp hl, ?_, ?_, ?_, ?_, ?_⟩
    · rw [h.commit]; omega
    · rw [h.log]; omega
    · rw [h.log, h.term]; exact hb.tm _ (by omega) (by omega)
    · rw [h.log]; exact quorum_list hQ
    · intro w hw
      rw [List.mem_filter] at hw
      obtain ⟨u, u1, u2⟩ := hS _ w hw.2
      exact ⟨_, u2, u, by rw [h.term], u1⟩
  refine ⟨_, hsim, ?_, by simp, by simp⟩
  have h1 := h.mono hsim.sub (fun e he => he)
  have hn := fun q => show (eff c0 a (.commit i (c.bb.pending + k) q)).node i =
      { a.node i with commit := c.bb.pending + k } by simp [eff, updF_same]
  rw [hn]
  refine h1.bb hl { c.bb with
    queue := q.drop (c.bb.pending + k + 1 - c.bb.pending), pending := c.bb.pending + k + 1,
    lastCommitted := c.bb.pending + k } ?_ (by show c.bb.lastCommitted ≤ c.bb.pending + k; omega)
  have ek : c.bb.pending + k + 1 - c.bb.pending = k + 1 := by omega
  rw [ek]
  exact {
    pos := Nat.succ_pos _
    len := by
      show c.bb.pending + k + 1 + (q.drop (k + 1)).length = c.log.length + 1
      rw [List.length_drop]; omega
    lc := Nat.lt_succ_self _
    tm := fun j j1 j2 => hb.tm j (by
      have : c.bb.pending + k + 1 ≤ j := j1
      omega) j2
    bal := by
      refine ⟨fun k' p => (S k' p || (decide (max c.bb.pending first ≤ k' ∧ k' ≤ last) && p == v)),
        fun j hj => ?_, fun k' p hkp => ?_⟩
      rotate_left
      · obtain ⟨u, u1, u2⟩ := hS k' p hkp
        exact ⟨u, u1, hsim.sub.msgs _ u2⟩
      · have hj' : k + 1 + j < q.length := by
          have : j < (q.drop (k + 1)).length := hj
          rw [List.length_drop] at this; omega
        have := hinv (k + 1 + j) hj'
        have e : c.bb.pending + (k + 1 + j) = c.bb.pending + k + 1 + j := by omega
        simp only [e] at this
        show Ballot.Inv _ _ _ (q.drop (k + 1))[j]
        rw [List.getElem_drop]
        exact this }

theorem sim_commitAt_of {a : Sys N D} (hi : Inv c0 a) (hn : a.node i = n) (h : NR c0 a.g ev i c n)
    (first last : Nat) (v : N) (hl : c.state.leads = true) (hm : Msg.ar c.term v last ∈ a.g.msgs) :
    Tr c0 i ev a ({ c with bb := (c.bb.commitAt first last v).1 }, [], []) := by
  subst hn; exact sim_commitAt hi h first last v hl hm

theorem sim_replAck {a : Sys N D} (hi : Inv c0 a) (h : NR c0 a.g ev i c (a.node i)) (t : Nat)
    (who : N) (first last : Nat) (hf : RFrame.ack t who first last ∈ c.repl)
    (hl : c.state.leads = true) (ht : c.term = t) :
    Tr c0 i ev a (sReplAck c (.ack t who first last), [], []) := by
  have hm := (h.repl _ hf).2.2 hl ht.symm
  have := sim_commitAt hi (h.replErase (.ack t who first last)) first last who hl
    (by rw [← ht] at hm; exact hm)
  exact this

/-! ### The disk queue -/

/-- Setting the committed index. -/
theorem NR.setCommitted (h : NR c0 g ev i c n) (k : Nat) :
    NR c0 g ev i (sSetCommitted c k)
      { n with commit := if n.role = .leader then n.commit else max n.commit k } := by
  by_cases hl : c.state.leads = true
  · rw [if_pos ((leads_role h).mp hl)]
    have hp := (h.lead hl).pos
    have : sSetCommitted c k = c := by
      unfold sSetCommitted BallotBox.setLastCommittedIndex
      rw [if_pos (Or.inl (by omega))]
    rw [this]; exact h
  · have hl' : c.state.leads = false := by simpa using hl
    rw [if_neg (fun e => hl ((leads_role h).mpr e))]
    have hf := h.fol hl'
    have hb : ∃ b, (c.bb.setLastCommittedIndex k).1 = b ∧ b.lastCommitted = max c.bb.lastCommitted k ∧
        b.pending = 0 ∧ b.queue = [] := by
      refine ⟨_, rfl, ?_⟩
      unfold BallotBox.setLastCommittedIndex
      rw [if_neg (by simp [hf.1, hf.2])]
      split
      · exact ⟨by show c.bb.lastCommitted = _; omega, hf⟩
      · split
        · exact ⟨by show k = _; omega, hf⟩
        · exact ⟨by show c.bb.lastCommitted = _; omega, hf⟩
    unfold sSetCommitted
    obtain ⟨b, e1, e2, e3, e4⟩ := hb
    rw [e1]
    exact { h with
      commit := by show max n.commit k = b.lastCommitted; rw [e2, h.commit]
      el := fun f hf => (h.el f hf).congr rfl rfl rfl rfl rfl rfl
      lead := fun hx => absurd hx hl
      fol := fun _ => ⟨e3, e4⟩
      repl := fun f hf => ⟨(h.repl f hf).1, (h.repl f hf).2.1, fun x1 _ => absurd x1 hl⟩ }

/-- The effect of a disk queue step on the storage. -/
theorem NR.diskTo {j : Job N D} {q : List (Job N D)} {o : Op N D} {q' : List (Op N D)}
    (h : NR c0 g ev i c n) (hq : c.queue = j :: q) (hq' : n.queue = o :: q') :
    NR c0 (g.held i (applyOp n.disk o)) ev i
      { c with
        disk := applyJob c.disk j, queue := q,
        elects := c.elects.map (fun f => { f with rest := f.rest - 1 }) }
      { n with disk := applyOp n.disk o, queue := q' } := by
  have hQ := h.queue
  rw [hq, hq'] at hQ
  obtain ⟨hj, hQ⟩ : JR j o ∧ QR q q' := by cases hQ; exact ⟨by assumption, by assumption⟩
  have hsub : GSub g (g.held i (applyOp n.disk o)) :=
    ⟨fun _ x => x, fun k o' x => mem_held _ _ _ _ _ x, fun _ x => x, fun _ x => x⟩
  have h1 := h.mono hsub (fun e he => he)
  have hd : applyJob c.disk j = applyOp n.disk o := by rw [hj.apply, h.disk]
  exact { h1 with
    disk := hd.symm
    queue := hQ
    el := fun f' hf' => by
      obtain ⟨f, hf, rfl⟩ := List.mem_map.mp hf'
      have hx := h1.el f hf
      have hr := hx.rest
      rw [hq] at hr
      simp only [List.length_cons] at hr
      exact {
        le := hx.le
        rest := by show f.rest - 1 ≤ q.length; omega
        claim := by
          show (0 < f.rest - 1 ∧ f.claim = lastId (drainJobs (applyJob c.disk j) (q.take (f.rest - 1)))) ∨ _
          rcases hx.claim with ⟨y1, y2⟩ | y
          · rw [hq] at y2
            obtain ⟨m, hm⟩ : ∃ m, f.rest = m + 1 := ⟨f.rest - 1, by omega⟩
            rw [hm] at y2 ⊢
            simp only [List.take_succ_cons, drainJobs, List.foldl_cons, Nat.add_sub_cancel] at y2 ⊢
            by_cases hm0 : m = 0
            · right
              subst hm0
              refine ⟨applyOp n.disk o, by simp [Glob.held, updF], ?_⟩
              rw [y2, ← hd]; rfl
            · left; exact ⟨by omega, y2⟩
          · exact Or.inr y
        now := fun he => by
          obtain ⟨z1, z2, z3, z4⟩ := hx.now he
          refine ⟨z1, z2, z3, ?_⟩
          show noLeaderJob (q.drop (f.rest - 1)) = true
          rw [hq] at z4
          by_cases hr0 : f.rest = 0
          · rw [hr0] at z4 ⊢
            simp only [List.drop_zero, noLeaderJob, List.all_cons, Bool.and_eq_true] at z4 ⊢
            exact z4.2
          · obtain ⟨m, hm⟩ : ∃ m, f.rest = m + 1 := ⟨f.rest - 1, by omega⟩
            rw [hm] at z4 ⊢
            simpa using z4 }
    eln := by
      have : (c.elects.map (fun f => ({ f with rest := f.rest - 1 } : EFrame))).map EFrame.term =
          c.elects.map EFrame.term := by rw [List.map_map]; rfl
      show List.Nodup (List.map _ _)
      rw [this]; exact h.eln
    pend := fun h2 f' hf' he => by
      obtain ⟨f, hf, rfl⟩ := List.mem_map.mp hf'
      exact h1.pend h2 f hf he
    lead := fun hx => { h1.lead hx with }
    repl := fun f hf => ⟨(h1.repl f hf).1, (h1.repl f hf).2.1,
      fun x1 x2 => ((h1.repl f hf).2.2 x1 x2).congr rfl (Nat.le_refl _)⟩ }

theorem gsub_ack (g : Glob N D) (t : Nat) (m : Log N D) : GSub g (g.ack t i m) :=
  ⟨fun _ x => List.mem_cons_of_mem _ x, fun _ _ x => x, fun _ x => x, fun _ x => x⟩

theorem sim_disk {a : Sys N D} (hi : Inv c0 a) (h : NR c0 a.g ev i c (a.node i)) :
    Tr c0 i ev a (sDisk i c) := by
  have hQ := h.queue
  cases hq : c.queue with
  | nil =>
    have : sDisk i c = (c, [], []) := by unfold sDisk; rw [hq]
    rw [this]; exact Tr.stay h
  | cons j q =>
    rw [hq] at hQ
    obtain ⟨o, q', hq', hj⟩ : ∃ o q', (a.node i).queue = o :: q' ∧ JR j o := by
      generalize (a.node i).queue = x at hQ
      cases hQ; exact ⟨_, _, rfl, by assumption⟩
    have hsim : Sim1 c0 i a (eff c0 a (.disk i)) :=
      sim_act i _ rfl (by show (a.node i).queue ≠ []; rw [hq']; simp)
    have hd := h.diskTo hq hq'
    have hinv := hsim.inv hi
    have hE : eff c0 a (.disk i) = diskStep a i := rfl
    rw [hE] at hsim hinv
    unfold sDisk
    rw [hq]
    dsimp only
    unfold diskStep at hsim hinv
    dsimp only at hsim hinv
    rw [hq'] at hsim hinv
    dsimp only at hsim hinv
    cases hj with
    | push e => exact ⟨_, hsim, by simpa [updF_same] using hd, by simp, by simp⟩
    | pop => exact ⟨_, hsim, by simpa [updF_same] using hd, by simp, by simp⟩
    | snap K => exact ⟨_, hsim, by simpa [updF_same] using hd, by simp, by simp⟩
    | follower t k cm l m =>
      dsimp only at hsim hinv ⊢
      by_cases ht : t = c.term
      · rw [if_neg (by simpa using ht)]
        rw [if_pos (by rw [h.term]; exact ht)] at hsim hinv
        refine ⟨_, hsim, ?_, ?_, by simp⟩
        · simp only [updF_same, List.nil_append]
          exact (hd.setCommitted (min cm m.length)).mono (gsub_ack _ _ _) (fun e he => he)
        · intro x hx
          simp only [List.mem_singleton] at hx
          subst hx
          intro _ _
          simp [Glob.ack]
      · rw [if_pos ht]
        rw [if_neg (by rw [h.term]; exact ht)] at hsim hinv
        refine ⟨_, hsim, by simpa [updF_same] using hd, ?_, by simp⟩
        intro x hx
        simp only [List.mem_singleton] at hx
        subst hx
        intro hx; cases hx
    | leader first k m hm =>
      dsimp only at hsim hinv ⊢
      by_cases hl : c.state.leads = true
      · rw [if_pos ((leads_role h).mp hl)] at hsim hinv
        refine Tr.after hsim ?_
        have hd' : NR c0 (((a.g.held i (applyOp (a.node i).disk (.ackL m))).ack (a.node i).term i m)) ev i
            _ _ := hd.mono (gsub_ack _ _ _) (fun e he => he)
        exact sim_commitAt_of hinv (updF_same _ _ _) hd' first (first + k - 1) i hl
          (by simp [Glob.ack, hm, h.term])
      · rw [if_neg (fun e => hl ((leads_role h).mpr e))] at hsim hinv
        refine Tr.after hsim ?_
        have hf := h.fol (by simpa using hl)
        have e : (c.bb.commitAt first (first + k - 1) i).1 = c.bb := by
          unfold BallotBox.commitAt; rw [if_pos hf.1]
        rw [e]
        exact Tr.stay (by simpa [updF_same] using hd)

/-! ### The state machine and snapshots -/

theorem NR.fsm (h : NR c0 g ev i c n) (k : Nat) (m : Log N D) :
    NR c0 g ev i { c with applied := k, sm := m } { n with applied := k, sm := m } :=
  { h with
    applied := rfl
    sm := rfl
    el := fun f hf => (h.el f hf).congr rfl rfl rfl rfl rfl rfl
    lead := fun hx => { h.lead hx with }
    repl := fun f hf => ⟨(h.repl f hf).1, (h.repl f hf).2.1,
      fun x1 x2 => ((h.repl f hf).2.2 x1 x2).congr rfl (Nat.le_refl _)⟩ }

theorem sim_fsm {a : Sys N D} (hi : Inv c0 a) (h : NR c0 a.g ev i c (a.node i))
    (hc : c.applied < c.bb.lastCommitted) : Tr c0 i ev a (sApply i c) := by
  have hsim : Sim1 c0 i a (eff c0 a (.apply i)) :=
    sim_act i _ rfl (by show (a.node i).applied < (a.node i).commit; rw [h.applied, h.commit]; exact hc)
  have hn : (eff c0 a (.apply i)).node i = { a.node i with
      applied := c.applied + 1, sm := c.sm ++ (c.log.drop c.applied).take 1 } := by
    simp [eff, updF_same, h.applied, h.sm, h.log]
  refine ⟨_, hsim, ?_, by simp [sApply], ?_⟩
  · rw [hn]
    exact (h.fsm _ _).mono hsim.sub (fun e he => List.mem_append_right _ he)
  · intro e he
    simp only [sApply] at he
    cases hx : c.log[c.applied]? with
    | none => rw [hx] at he; cases he
    | some x =>
      rw [hx] at he
      simp only [List.mem_singleton] at he
      subst he
      simp [ER, eff, h.log, h.applied, hx]

theorem NR.psnapTo (h : NR c0 g ev i c n) (P : Log N D) :
    NR c0 g ev i { c with psnap := P } { n with psnap := P } :=
  { h with
    psnap := rfl
    el := fun f hf => (h.el f hf).congr rfl rfl rfl rfl rfl rfl
    lead := fun hx => { h.lead hx with }
    repl := fun f hf => ⟨(h.repl f hf).1, (h.repl f hf).2.1,
      fun x1 x2 => ((h.repl f hf).2.2 x1 x2).congr rfl (Nat.le_refl _)⟩ }

theorem NR.dlTo (h : NR c0 g ev i c n) (d : Option (Log N D)) :
    NR c0 g ev i { c with dl := d } { n with dl := d } :=
  { h with
    dl := rfl
    el := fun f hf => (h.el f hf).congr rfl rfl rfl rfl rfl rfl
    lead := fun hx => { h.lead hx with }
    repl := fun f hf => ⟨(h.repl f hf).1, (h.repl f hf).2.1,
      fun x1 x2 => ((h.repl f hf).2.2 x1 x2).congr rfl (Nat.le_refl _)⟩ }

theorem gsub_held (g : Glob N D) (K : Log N D) : GSub g (g.held i K) :=
  ⟨fun _ x => x, fun k o' x => mem_held _ _ _ _ _ x, fun _ x => x, fun _ x => x⟩

theorem NR.snapTo (h : NR c0 g ev i c n) (K : Log N D) :
    NR c0 (g.held i K) ev i { c with snap := K } { n with snap := K } := by
  have hsub : GSub g (g.held i K) :=
    ⟨fun _ x => x, fun k o' x => mem_held _ _ _ _ _ x, fun _ x => x, fun _ x => x⟩
  have h1 := h.mono hsub (fun e he => he)
  exact { h1 with
    snap := rfl
    sn := by simp [Glob.held, updF]
    el := fun f hf => (h1.el f hf).congr rfl rfl rfl rfl rfl rfl
    lead := fun hx => { h1.lead hx with }
    repl := fun f hf => ⟨(h1.repl f hf).1, (h1.repl f hf).2.1,
      fun x1 x2 => ((h1.repl f hf).2.2 x1 x2).congr rfl (Nat.le_refl _)⟩ }

theorem sim_saveSnap {a : Sys N D} (h : NR c0 a.g ev i c (a.node i)) (k : Nat)
    (h1 : c.dl = none) (h2 : c.psnap.length < k) (h3 : k ≤ c.applied) (h4 : c.pterm = c.term) :
    Tr c0 i ev a ({ c with snap := c.sm.take k, psnap := c.sm.take k }, [], []) := by
  have hsim : Sim1 c0 i a (eff c0 a (.saveSnap i k)) := sim_act i _ rfl
    ⟨by rw [h.dl]; exact h1, by rw [h.psnap]; exact h2, by rw [h.applied]; exact h3,
      fun _ => by rw [h.pterm, h.term]; exact h4⟩
  refine ⟨_, hsim, ?_, by simp, by simp⟩
  have := (h.psnapTo (c.sm.take k)).snapTo (c.sm.take k)
  simp only [eff, updF_same, List.nil_append]
  have e : (a.node i).sm.take k = c.sm.take k := by rw [h.sm]
  rw [e]
  exact this

theorem sim_copied {a : Sys N D} (h : NR c0 a.g ev i c (a.node i)) (h1 : c.dl ≠ none)
    (h4 : c.pterm = c.term) :
    Tr c0 i ev a ({ c with psnap := c.dl.getD c.psnap }, [], []) := by
  have hsim : Sim1 c0 i a (eff c0 a (.copied i)) := sim_act i _ rfl
    ⟨by rw [h.dl]; exact h1, fun _ => by rw [h.pterm, h.term]; exact h4⟩
  refine ⟨_, hsim, ?_, by simp, by simp⟩
  have e : (a.node i).dl.getD (a.node i).psnap = c.dl.getD c.psnap := by rw [h.dl, h.psnap]
  simp only [eff, setNode, updF_same, List.nil_append]
  rw [e]
  exact h.psnapTo _

theorem sim_dlDrop {a : Sys N D} (h : NR c0 a.g ev i c (a.node i)) (h1 : c.dl ≠ none)
    (h2 : c.dl ≠ some c.psnap) : Tr c0 i ev a ({ c with dl := none }, [], []) := by
  have hsim : Sim1 c0 i a (eff c0 a (.dlDrop i)) := sim_act i _ rfl
    ⟨by rw [h.dl]; exact h1, by rw [h.dl, h.psnap]; exact h2⟩
  refine ⟨_, hsim, ?_, by simp, by simp⟩
  simp only [eff, setNode, updF_same, List.nil_append]
  exact h.dlTo none

theorem sim_sendIS {a : Sys N D} (h : NR c0 a.g ev i c (a.node i)) (to : N)
    (hl : c.state.leads = true) (h1 : c.psnap ≠ []) :
    Tr c0 i ev a (c, [.isReq c.term i to c.psnap], []) := by
  have hsim : Sim1 c0 i a (eff c0 a (.sendIS i)) := sim_act i _ rfl
    ⟨(leads_role h).mp hl, by rw [h.psnap]; exact h1⟩
  refine ⟨_, hsim, h.mono hsim.sub (fun e he => he), ?_, by simp⟩
  intro m hm
  simp only [List.mem_singleton] at hm
  subst hm
  exact ⟨by simp [eff, Glob.send, h.term, h.psnap], by simpa using h.me hl⟩

/-- A follower's log is replaced, its queue grows. -/
theorem NR.relog (h : NR c0 g ev i c n) (hl : c.state.leads = false) (l : Log N D)
    {js : List (Job N D)} {os : List (Op N D)} (hjs : QR js os) (hn : noLeaderJob js = true) :
    NR c0 g ev i { c with log := l, queue := c.queue ++ js }
      { n with log := l, queue := n.queue ++ os } :=
  { h with
    log := rfl
    queue := forall2_append h.queue hjs
    el := fun f hf => (h.el f hf).append js rfl rfl rfl rfl rfl rfl (fun _ => hn)
    lead := fun hx => by
      have hx : c.state.leads = true := hx
      rw [hl] at hx; cases hx
    repl := fun f hf => ⟨(h.repl f hf).1, (h.repl f hf).2.1, fun x1 x2 => by
      have hx : c.state.leads = true := x1
      rw [hl] at hx; cases hx⟩ }

theorem sim_loaded {a : Sys N D} (hi : Inv c0 a) (h : NR c0 a.g ev i c (a.node i))
    (hd : c.dl = some c.psnap) : Tr c0 i ev a (sLoaded c, [], []) := by
  have hsim : Sim1 c0 i a (eff c0 a (.loaded i)) := sim_act i _ rfl
    (by show (a.node i).dl = _; rw [h.dl, h.psnap]; exact hd)
  have hfol : c.state.leads = false := by
    have := (hi.n i).dlf (by rw [h.dl, hd]; simp)
    cases hl : c.state.leads with
    | false => rfl
    | true => rw [(leads_role h).mp hl] at this; cases this
  refine ⟨_, hsim, ?_, by simp, by simp⟩
  simp only [eff, updF_same, List.nil_append]
  have key : ∀ K, K = c.psnap → NR c0 (a.g.held i (sLoaded c).snap) ev i (sLoaded c)
      (handleLoaded (a.node i) K) := by
    intro K hK
    have hsn : (a.node i).snap = c.snap := h.snap
    have hcond : (termAt (a.node i).log (a.node i).applied, (a.node i).applied) =
        (termAt c.log c.applied, c.applied) := by rw [h.log, h.applied]
    have hmerge : snapMerge K (a.node i).log = snapMerge c.psnap c.log := by rw [h.log, hK]
    have e1 : c.psnap = K := hK.symm
    unfold sLoaded handleLoaded
    dsimp only
    rw [hcond, hmerge]
    by_cases k1 : idLe (termAt c.log c.applied, c.applied) (lastId c.psnap) = true
    · rw [if_pos k1, if_pos (show idLe _ (lastId K) = true by rw [hK]; exact k1)]
      by_cases k2 : c.snap.length < c.psnap.length
      · rw [if_pos k2, if_pos (show (a.node i).snap.length < K.length by rw [hsn, hK]; exact k2)]
        rw [hK]
        exact (((h.dlTo none).fsm c.psnap.length c.psnap).relog hfol (snapMerge c.psnap c.log)
          (.cons (.snap c.psnap) .nil) rfl).snapTo c.psnap
      · rw [if_neg k2, if_neg (show ¬ (a.node i).snap.length < K.length by rw [hsn, hK]; exact k2)]
        rw [hK]
        exact ((h.dlTo none).fsm c.psnap.length c.psnap).mono (gsub_held _ _) (fun e he => he)
    · rw [if_neg k1, if_neg (show ¬ idLe _ (lastId K) = true by rw [hK]; exact k1)]
      exact (h.dlTo none).mono (gsub_held _ _) (fun e he => he)
  have key := key _ h.psnap
  have e : (handleLoaded (a.node i) (a.node i).psnap).snap = (sLoaded c).snap := key.snap
  rw [e]; exact key

end Braft.Cl
