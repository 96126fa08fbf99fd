import Verif.Cluster.SimA
/-
Simulation of the rest of elections and votes.
-/
set_option linter.unusedVariables false
set_option linter.unusedSimpArgs false
set_option linter.unusedSectionVars false

namespace Braft.Cl
open Braft.Raft
variable {N D : Type} [DecidableEq N] [DecidableEq D] {c0 : Conf N} {g : Glob N D}
  {ev : List (Ev N D)} {i : N} {c : Srv N D} {n : NodeSt N D}

theorem oldOf_nd {cf : Conf N} : ∀ oc, oldOf cf = some oc → oc.Nodup := by
  intro oc h
  unfold oldOf at h
  split at h
  · cases h
  · cases h; exact cf.ndo

theorem inv_grant {cf : Conf N} {S : N → Bool} {b : Ballot N}
    (h : Ballot.Inv cf.peers (oldOf cf) S b) (v : N) :
    Ballot.Inv cf.peers (oldOf cf) (fun p => S p || p == v) (b.grant v) :=
  Ballot.inv_grantHint cf.nd oldOf_nd h v {}

/-- Changes of the vote context other than its version and last log id. -/
theorem NR.ctx (h : NR c0 g ev i c n) (x : VoteCtx N) (hv : x.version = c.ctx.version)
    (hl : x.lastId = c.ctx.lastId)
    (hc : c.state = .candidate → ∃ S : N → Bool,
      Ballot.Inv n.bconf.peers (oldOf n.bconf) S x.ballot ∧
      ∀ v, S v = true → n.ready = true ∧ (v = i ∨ Msg.vr c.term v i ∈ g.msgs))
    (hf : c.state = .follower → ∀ f ∈ c.elects, f.term ≠ c.term) :
    NR c0 g ev i { c with ctx := x } n :=
  { h with
    el := fun f hf => (h.el f hf).congr rfl rfl rfl rfl rfl rfl
    cand := hc
    rpc := fun h1 h2 => h.rpc h1 (by rw [← hv]; exact h2)
    pend := fun h1 f h2 h3 => absurd h3 (hf h1 f h2)
    vrs := by rw [hv]; exact h.vrs
    ask := fun h1 h2 => by
      show Msg.rv c.term i x.lastId ∈ g.msgs
      rw [hl]; exact h.ask h1 h2
    lead := fun hx => { h.lead hx with }
    repl := fun f hf => by
      refine ⟨(h.repl f hf).1, (h.repl f hf).2.1, fun h1 h2 => ?_⟩
      have := (h.repl f hf).2.2 h1 h2
      cases f <;> exact this }

/-- Fewer RPCs and timers. -/
theorem NR.fewer (h : NR c0 g ev i c n) {rs : List (Rpc N)} {ts : List Nat}
    (hr : ∀ r ∈ rs, r ∈ c.rpcs) (ht : ∀ v ∈ ts, v ∈ c.timers) :
    NR c0 g ev i { c with rpcs := rs, timers := ts } n :=
  { h with
    el := fun f hf => (h.el f hf).congr rfl rfl rfl rfl rfl rfl
    rpc := fun h1 h2 => h.rpc h1 (by
      rcases h2 with ⟨r, h2, h3⟩ | h2
      · exact Or.inl ⟨r, hr r h2, h3⟩
      · exact Or.inr (ht _ h2))
    pend := fun h1 f h2 h3 => by
      obtain ⟨p1, p2, p3⟩ := h.pend h1 f h2 h3
      exact ⟨p1, p2, fun hx => p3 (ht _ hx)⟩
    vrs := ⟨fun r h2 => h.vrs.1 r (hr r h2), fun v h2 => h.vrs.2 v (ht v h2)⟩
    lead := fun hx => { h.lead hx with }
    repl := fun f hf => by
      refine ⟨(h.repl f hf).1, (h.repl f hf).2.1, fun h1 h2 => ?_⟩
      have := (h.repl f hf).2.2 h1 h2
      cases f <;> exact this }

/-- More RPCs and timers of the current version. -/
theorem NR.more (h : NR c0 g ev i c n) {rs : List (Rpc N)} {ts : List Nat}
    (hr : ∀ r ∈ rs, r ∈ c.rpcs ∨ r.version = c.ctx.version)
    (ht : ∀ v ∈ ts, v ∈ c.timers ∨ v = c.ctx.version)
    (hready : c.state = .candidate → n.ready = true)
    (hf : c.state = .follower → ∀ f ∈ c.elects, f.term ≠ c.term) :
    NR c0 g ev i { c with rpcs := rs, timers := ts } n :=
  { h with
    el := fun f hf => (h.el f hf).congr rfl rfl rfl rfl rfl rfl
    rpc := fun h1 h2 => hready h1
    pend := fun h1 f h2 h3 => absurd h3 (hf h1 f h2)
    vrs := by
      refine ⟨fun r h2 => ?_, fun v h2 => ?_⟩
      · rcases hr r h2 with h3 | h3
        · exact h.vrs.1 r h3
        · exact Nat.le_of_eq h3
      · rcases ht v h2 with h3 | h3
        · exact h.vrs.2 v h3
        · exact Nat.le_of_eq h3
    lead := fun hx => { h.lead hx with }
    repl := fun f hf => by
      refine ⟨(h.repl f hf).1, (h.repl f hf).2.1, fun h1 h2 => ?_⟩
      have := (h.repl f hf).2.2 h1 h2
      cases f <;> exact this }

/-- Messages of an earlier part of a handler. -/
theorem Tr.msgs {a : Sys N D} {r : Res N D} (h : Tr c0 i ev a r) {ms : List (CMsg N D)}
    (hm : ∀ m ∈ ms, MR a.g.msgs ev m) : Tr c0 i ev a (r.1, r.2.1 ++ ms, r.2.2) := by
  obtain ⟨a', h1, h2, h3, h4⟩ := h
  refine ⟨a', h1, h2, ?_, h4⟩
  intro m hx
  rcases List.mem_append.mp hx with hx | hx
  · exact h3 m hx
  · exact (hm m hx).mono h1.sub (fun e he => List.mem_append_right _ he)

/-- Nothing abstract happens, with answers. -/
theorem Tr.stayM {a : Sys N D} {ms : List (CMsg N D)} (h : NR c0 a.g ev i c (a.node i))
    (hm : ∀ m ∈ ms, MR a.g.msgs ev m) : Tr c0 i ev a (c, ms, []) := by
  have := (Tr.stay h).msgs hm
  simpa using this

theorem sim_grantSelf {p : CParams} {a : Sys N D} (hi : Inv c0 a)
    (h : NR c0 a.g ev i c (a.node i)) (free : Bool)
    (hready : c.state = .candidate → (a.node i).ready = true)
    (hf : c.state = .follower → ∀ f ∈ c.elects, f.term ≠ c.term)
    (hp : c.state = .candidate ∨ p.checkAborts = true ∨ (c.state = .follower ∧
      (a.node i).ready = true ∧
      ((a.node i).role = .candidate ∨ ¬ (a.node i).bconf.Quorum (fun v => decide (v = i))) ∧
      Ballot.Inv (a.node i).bconf.peers (oldOf (a.node i).bconf) (fun _ => false) c.ctx.ballot)) :
    Tr c0 i ev a (sGrantSelf p c0 i c free) := by
  unfold sGrantSelf
  split
  · have h1 : NR c0 a.g ev i { c with ctx := { c.ctx with ballot := c.ctx.ballot.grant i } }
        (a.node i) := by
      refine h.ctx _ rfl rfl (fun hc => ?_) hf
      obtain ⟨S, s1, s2⟩ := h.cand hc
      refine ⟨_, inv_grant s1 i, fun v hv => ⟨hready hc, ?_⟩⟩
      simp only [Bool.or_eq_true, beq_iff_eq] at hv
      rcases hv with hv | hv
      · exact (s2 v hv).2
      · exact Or.inl hv
    dsimp only
    split
    · rename_i hg
      refine sim_becomeLeader hi h1 hg ?_
      rcases hp with hp | hp | ⟨p1, p2, p3, p4⟩
      · exact Or.inl hp
      · exact Or.inr (Or.inl hp)
      · have hb := inv_grant p4 i
        refine Or.inr (Or.inr ⟨p1, ?_, p2, _, hb, fun v hv => by simpa using hv⟩)
        refine p3.resolve_right (fun hn => hn ?_)
        have := quorum_iff ((Ballot.inv_granted_iff hb).mp hg)
        have e : (fun p => false || p == i) = (fun v => decide (v = i)) := by
          funext v; by_cases hvi : v = i <;> simp [hvi]
        rw [e] at this; exact this
    · exact Tr.stay h1
  · refine Tr.stay ?_
    exact h.more (rs := c.rpcs) (fun r hr => Or.inl hr) (fun v hv => by
      rcases List.mem_cons.mp hv with hv | hv
      · exact Or.inr hv
      · exact Or.inl hv) hready hf

theorem sim_timer {p : CParams} {a : Sys N D} (hi : Inv c0 a) (h : NR c0 a.g ev i c (a.node i))
    (v : Nat) (free : Bool) (hv : v ∈ c.timers) (hp : p.checkAborts = true) :
    Tr c0 i ev a (sTimer p c0 i c v free) := by
  have h1 : NR c0 a.g ev i { c with timers := c.timers.erase v } (a.node i) :=
    h.fewer (rs := c.rpcs) (fun r hr => hr) (fun w hw => List.mem_of_mem_erase hw)
  unfold sTimer
  dsimp only
  split
  · exact Tr.stay h1
  · rename_i he
    have he : c.ctx.version = v := Decidable.not_not.mp he
    exact sim_grantSelf hi h1 free (fun hc => h.rpc hc (Or.inr (by rw [he]; exact hv)))
      (fun hc f hf ht => (h.pend hc f hf ht).2.2 (by rw [he]; exact hv)) (Or.inr (Or.inl hp))

/-- Requests to vote. -/
theorem NR.request (h : NR c0 g ev i c n) (ps : List N)
    (hready : c.state = .candidate → n.ready = true)
    (hf : c.state = .follower → ∀ f ∈ c.elects, f.term ≠ c.term) :
    NR c0 g ev i (sRequestPeers i c ps).1 n := by
  unfold sRequestPeers
  exact h.more (ts := c.timers) (fun r hr => by
    rcases List.mem_append.mp hr with hr | hr
    · obtain ⟨x, _, hx⟩ := List.mem_map.mp hr
      right; rw [← hx]
    · exact Or.inl hr) (fun v hv => Or.inl hv) hready hf

theorem MR.request {gm : List (Msg N D)} (ps : List N)
    (hm : Msg.rv c.term i c.ctx.lastId ∈ gm) :
    ∀ m ∈ (sRequestPeers i c ps).2, MR gm ev m := by
  intro m hx
  simp only [sRequestPeers] at hx
  obtain ⟨x, h1, h2⟩ := List.mem_map.mp hx
  rw [← h2]
  rw [List.mem_filter] at h1
  exact ⟨by simpa using h1.2, hm⟩

/-- Frames of other terms. -/
theorem erase_term {l : List EFrame} {f f' : EFrame} (hn : (l.map EFrame.term).Nodup) (hf : f ∈ l)
    (h : f' ∈ l.erase f) : f' ∈ l ∧ f'.term ≠ f.term := by
  induction l with
  | nil => cases hf
  | cons x l ih =>
    simp only [List.map_cons, List.nodup_cons] at hn
    by_cases hx : x = f
    · subst hx
      simp only [List.erase_cons_head] at h
      refine ⟨List.mem_cons_of_mem _ h, fun he => hn.1 ?_⟩
      rw [← he]; exact List.mem_map_of_mem h
    · rw [List.erase_cons_tail (by simpa using hx)] at h
      have hf' : f ∈ l := by
        rcases List.mem_cons.mp hf with hf | hf
        · exact absurd hf.symm hx
        · exact hf
      rcases List.mem_cons.mp h with h | h
      · refine ⟨by simp [h], fun he => hn.1 ?_⟩
        rw [← h, he]; exact List.mem_map_of_mem hf'
      · exact ⟨List.mem_cons_of_mem _ (ih hn.2 hf' h).1, (ih hn.2 hf' h).2⟩

theorem erase_nodup {l : List EFrame} (hn : (l.map EFrame.term).Nodup) (f : EFrame) :
    ((l.erase f).map EFrame.term).Nodup :=
  (List.erase_sublist.map _).nodup hn

/-- A pending `elect_self` that has become stale. -/
theorem NR.eraseElect (h : NR c0 g ev i c n) (f : EFrame) :
    NR c0 g ev i { c with elects := c.elects.erase f } n :=
  { h with
    el := fun f' hf => (h.el f' (List.mem_of_mem_erase hf)).congr rfl rfl rfl rfl rfl rfl
    eln := erase_nodup h.eln f
    pend := fun h1 f' h2 h3 => h.pend h1 f' (List.mem_of_mem_erase h2) h3
    lead := fun hx => { h.lead hx with }
    repl := fun f hf => by
      refine ⟨(h.repl f hf).1, (h.repl f hf).2.1, fun h1 h2 => ?_⟩
      have := (h.repl f hf).2.2 h1 h2
      cases f <;> exact this }

/-- `elect_self`, second half, up to the vote being stored. -/
theorem sim_electAsk {a : Sys N D} (hi : Inv c0 a) (h : NR c0 a.g ev i c (a.node i)) (f : EFrame)
    (hf : f ∈ c.elects) (hr : f.rest = 0) (ht : f.term = c.term) :
    ∃ a', Sim1 c0 i a a' ∧ (a'.node i).ready = true ∧ (a'.node i).role = (a.node i).role ∧
      (a'.node i).bconf = (a.node i).bconf ∧
      NR c0 a'.g ev i { (sElectAsk c0 i c f).1 with pterm := c.term, pvote := some i } (a'.node i) ∧
      ∀ m ∈ (sElectAsk c0 i c f).2, MR a'.g.msgs ev m := by
  have he := h.el f hf
  obtain ⟨o, ho, hcl⟩ : ∃ o ∈ a.g.hist i, f.claim = lastId o := by
    rcases he.claim with ⟨h1, _⟩ | h1
    · omega
    · exact h1
  obtain ⟨e1, e2, e3, e4⟩ := he.now ht
  rw [hr, List.drop_zero, noLeader_rel h.queue] at e4
  have hsim : Sim1 c0 i a (eff c0 a (.electSend i o)) := sim_act i _ rfl (by
    refine ⟨?_, Or.inl ⟨ho, e4⟩⟩
    rw [e1, ht, h.term])
  have hnone : ∀ f' ∈ c.elects.erase f, f'.term ≠ c.term := fun f' hf' => by
    rw [← ht]; exact (erase_term h.eln hf hf').2
  refine ⟨_, hsim, ?_, ?_, ?_, ?_, ?_⟩
  · simp [eff, updF_same]
  · simp [eff, updF_same]
  · simp [eff, updF_same]
  · have h1 := h.mono hsim.sub (fun e he => he)
    have hrv : Msg.rv c.term i f.claim ∈ (eff c0 a (.electSend i o)).g.msgs := by
      simp [eff, Glob.send, h.term, hcl]
    have hn : (eff c0 a (.electSend i o)).node i = { a.node i with
        elect := none, ready := true, pterm := (a.node i).term, pvote := some i } := by
      simp [eff, updF_same]
    rw [hn]
    generalize (eff c0 a (.electSend i o)).g = g1 at h1 hrv
    have h2 : NR c0 g1 ev i { c with
          elects := c.elects.erase f, ctx := { c.ctx with lastId := f.claim },
          pterm := c.term, pvote := some i }
        { a.node i with elect := none, ready := true, pterm := (a.node i).term, pvote := some i } :=
      { h1 with
        pterm := h.term
        pvote := rfl
        el := fun f' hf' => by
          obtain ⟨g1, g2⟩ := erase_term h.eln hf hf'
          have hx := h1.el f' g1
          exact { le := hx.le, rest := hx.rest, claim := hx.claim
                  now := fun hh => by
                    exfalso; apply g2
                    have hh' : f'.term = c.term := hh
                    omega }
        eln := erase_nodup h.eln f
        cand := fun hc => by
          obtain ⟨S, s1, s2⟩ := h1.cand hc
          exact ⟨S, s1, fun v hv => ⟨rfl, (s2 v hv).2⟩⟩
        rpc := fun _ _ => rfl
        pend := fun _ f' hf' he => absurd he (hnone f' hf')
        vrs := h1.vrs
        ask := fun _ _ => hrv
        lead := fun hx => { h1.lead hx with }
        repl := fun f hf => by
          refine ⟨(h1.repl f hf).1, (h1.repl f hf).2.1, fun x1 x2 => ?_⟩
          have := (h1.repl f hf).2.2 x1 x2
          cases f <;> exact this }
    exact h2.request _ (fun _ => rfl) (fun _ => hnone)
  · unfold sElectAsk
    apply MR.request
    simp [eff, Glob.send, h.term, hcl]

theorem sim_electB {p : CParams} {a : Sys N D} (hi : Inv c0 a) (h : NR c0 a.g ev i c (a.node i))
    (f : EFrame) (free : Bool) (hf : f ∈ c.elects) (hr : f.rest = 0) :
    Tr c0 i ev a (sElectB p c0 i c f true free) := by
  unfold sElectB
  split
  · exact Tr.stay (h.eraseElect f)
  · rename_i ht
    have ht : f.term = c.term := Decidable.not_not.mp ht
    obtain ⟨a1, h1, h2, e1, e2, h3, h4⟩ := sim_electAsk hi h f hf hr ht
    refine Tr.after h1 ?_
    dsimp only
    rw [if_pos rfl]
    have := sim_grantSelf (p := p) (h1.inv hi) h3 free (fun _ => h2) (fun _ f' hf' he => by
      have := (erase_term h.eln hf hf').2
      have he' : f'.term = c.term := he
      omega) (by
      cases hs : c.state with
      | leader => have := ((h.el f hf).now ht).2.1; rw [hs] at this; cases this
      | transferring => have := ((h.el f hf).now ht).2.1; rw [hs] at this; cases this
      | candidate => exact Or.inl hs
      | follower =>
        obtain ⟨p1, p2, p3⟩ := h.pend hs f hf ht
        refine Or.inr (Or.inr ⟨hs, h2, ?_, ?_⟩)
        · rw [e1, e2]; exact p1
        · rw [e2]; exact p2)
    exact this.msgs h4

theorem sim_electDie {a : Sys N D} (hi : Inv c0 a) (h : NR c0 a.g ev i c (a.node i)) (f : EFrame)
    (hf : f ∈ c.elects) (hr : f.rest = 0) (ht : f.term = c.term) :
    Tr c0 i ev a (restartSrv c, (sElectAsk c0 i c f).2, []) := by
  have he := h.el f hf
  obtain ⟨o, ho, hcl⟩ : ∃ o ∈ a.g.hist i, f.claim = lastId o := by
    rcases he.claim with ⟨h1, _⟩ | h1
    · omega
    · exact h1
  obtain ⟨e1, e2, e3, e4⟩ := he.now ht
  rw [hr, List.drop_zero, noLeader_rel h.queue] at e4
  have hsim : Sim1 c0 i a (eff c0 a (.electCrash i o)) := sim_act i _ rfl (by
    refine ⟨?_, Or.inl ⟨ho, e4⟩⟩
    rw [e1, ht, h.term])
  refine ⟨_, hsim, ?_, ?_, by simp⟩
  · simp only [eff, updF_same, List.nil_append]
    refine h.restart.mono ?_ (fun e he => he)
    exact ⟨fun m hm => List.mem_cons_of_mem _ hm, fun _ _ hx => hx, fun _ hx => hx, fun _ hx => hx⟩
  · show ∀ m ∈ (sElectAsk c0 i c f).2, _
    unfold sElectAsk
    apply MR.request
    simp [eff, Glob.send, h.term, hcl]

theorem sim_voteRes {p : CParams} {a : Sys N D} (hi : Inv c0 a) (h : NR c0 a.g ev i c (a.node i)) (r : Rpc N)
    (granted rejected disrupted : Bool) (rterm prevTerm : Nat) (ok : Bool) (hr : r ∈ c.rpcs)
    (hm : granted = true → Msg.vr r.term r.peer i ∈ a.g.msgs) :
    Tr c0 i ev a (sVoteRes p c0 i c r granted rejected disrupted rterm prevTerm ok) := by
  have h0 : NR c0 a.g ev i { c with rpcs := c.rpcs.erase r } (a.node i) :=
    h.fewer (ts := c.timers) (fun x hx => List.mem_of_mem_erase hx) (fun w hw => hw)
  unfold sVoteRes
  dsimp only
  by_cases c1 : r.version ≠ c.ctx.version
  · rw [if_pos c1]; exact Tr.stay h0
  rw [if_neg c1]
  by_cases c2 : c.state ≠ .candidate
  · rw [if_pos c2]; exact Tr.stay h0
  rw [if_neg c2]
  by_cases c3 : r.term ≠ c.term
  · rw [if_pos c3]; exact Tr.stay h0
  rw [if_neg c3]
  by_cases c4 : c.term < rterm
  · rw [if_pos c4]
    obtain ⟨a', s1, s2, s3⟩ := sim_stepDown h0 rterm ok (Nat.le_of_lt c4) (Or.inl c4)
    exact ⟨a', s1, s2, by simp, by simp⟩
  rw [if_neg c4]
  by_cases c5 : ¬ granted = true ∧ ¬ rejected = true
  · rw [if_pos c5]; exact Tr.stay h0
  rw [if_neg c5]
  have hv : r.version = c.ctx.version := Decidable.not_not.mp c1
  have hc : c.state = .candidate := Decidable.not_not.mp c2
  have ht : r.term = c.term := Decidable.not_not.mp c3
  have hready : (a.node i).ready = true := h.rpc hc (Or.inl ⟨r, hr, hv⟩)
  generalize hx1 : (if disrupted = true then
      ({ c.ctx with disrupted := some (some r.peer, prevTerm) } : VoteCtx N) else c.ctx) = x1
  have e1 : x1.version = c.ctx.version ∧ x1.lastId = c.ctx.lastId ∧ x1.ballot = c.ctx.ballot := by
    rw [← hx1]; split <;> exact ⟨rfl, rfl, rfl⟩
  generalize hb1 : (if granted = true then x1.ballot.grant r.peer else x1.ballot) = b1
  generalize hb2 : (if granted = true ∧ some r.peer = c.lastLeader then b1.grant i else b1) = b2
  generalize (if granted = true then x1.reserved else r.peer :: x1.reserved) = rs
  have hbal : ∃ S : N → Bool, Ballot.Inv (a.node i).bconf.peers (oldOf (a.node i).bconf) S b2 ∧
      ∀ v, S v = true → (a.node i).ready = true ∧ (v = i ∨ Msg.vr c.term v i ∈ a.g.msgs) := by
    have k1 : ∃ S : N → Bool, Ballot.Inv (a.node i).bconf.peers (oldOf (a.node i).bconf) S b1 ∧
        ∀ v, S v = true → (v = i ∨ Msg.vr c.term v i ∈ a.g.msgs) := by
      obtain ⟨S, s1, s2⟩ := h.cand hc
      rw [← hb1, e1.2.2]
      split
      · rename_i hg
        refine ⟨_, inv_grant s1 r.peer, fun v hv => ?_⟩
        simp only [Bool.or_eq_true, beq_iff_eq] at hv
        rcases hv with hv | hv
        · exact (s2 v hv).2
        · right; rw [hv, ← ht]; exact hm hg
      · exact ⟨S, s1, fun v hv => (s2 v hv).2⟩
    obtain ⟨S, s1, s2⟩ := k1
    rw [← hb2]
    split
    · refine ⟨_, inv_grant s1 i, fun v hv => ⟨hready, ?_⟩⟩
      simp only [Bool.or_eq_true, beq_iff_eq] at hv
      rcases hv with hv | hv
      · exact s2 v hv
      · exact Or.inl hv
    · exact ⟨S, s1, fun v hv => ⟨hready, s2 v hv⟩⟩
  have h1 : NR c0 a.g ev i { c with
      rpcs := c.rpcs.erase r, ctx := { x1 with ballot := b2, reserved := rs } } (a.node i) :=
    h0.ctx _ e1.1 e1.2.1 (fun _ => hbal) (fun hx => by
      have hx : c.state = .follower := hx
      rw [hc] at hx; cases hx)
  by_cases c6 : granted = true ∧ b2.granted = true
  · rw [if_pos c6]
    exact sim_becomeLeader hi h1 c6.2 (Or.inl hc)
  rw [if_neg c6]
  by_cases c7 : x1.disrupted = none
  · rw [if_pos c7]; exact Tr.stay h1
  rw [if_neg c7]
  have h2 : NR c0 a.g ev i { c with
      rpcs := c.rpcs.erase r, ctx := { x1 with ballot := b2, reserved := [] } } (a.node i) :=
    h0.ctx _ e1.1 e1.2.1 (fun _ => hbal) (fun hx => by
      have hx : c.state = .follower := hx
      rw [hc] at hx; cases hx)
  refine Tr.stayM (h2.request rs (fun _ => hready) (fun hx => by
    have hx : c.state = .follower := hx
    rw [hc] at hx; cases hx)) ?_
  apply MR.request
  show Msg.rv c.term i x1.lastId ∈ a.g.msgs
  rw [e1.2.1]; exact h.ask hc hready

/-! ### Voting -/

theorem NR.vcalls (h : NR c0 g ev i c n) (vs : List (VFrame N)) :
    NR c0 g ev i { c with vcalls := vs } { n with vframes := vs } :=
  { h with
    vf := rfl
    el := fun f hf => (h.el f hf).congr rfl rfl rfl rfl rfl rfl
    lead := fun hx => { h.lead hx with }
    repl := fun f hf => by
      refine ⟨(h.repl f hf).1, (h.repl f hf).2.1, fun h1 h2 => ?_⟩
      have := (h.repl f hf).2.2 h1 h2
      cases f <;> exact this }

theorem sim_voteReqA {a : Sys N D} (hi : Inv c0 a) (h : NR c0 a.g ev i c (a.node i)) (t : Nat)
    (cand : N) (claim : Nat × Nat) (hm : Msg.rv t cand claim ∈ a.g.msgs) (hne : i ≠ cand) :
    Tr c0 i ev a (sVoteReqA i c t cand claim) := by
  unfold sVoteReqA
  split
  · refine Tr.stayM h ?_
    intro m hx
    simp only [List.mem_singleton] at hx
    subst hx
    intro hx; cases hx
  · rename_i ht
    refine ⟨eff c0 a (.voteBegin i t cand claim), sim_act i _ rfl
      ⟨hm, by rw [h.term]; omega, fun e => hne e.symm⟩, ?_, by simp, by simp⟩
    simp only [eff, setNode, updF_same, List.nil_append]
    have e : ((⟨t, cand, claim, (a.node i).term, lastId (a.node i).log⟩ : VFrame N) ::
        (a.node i).vframes) = ⟨t, cand, claim, c.term, askId c⟩ :: c.vcalls := by
      rw [askId_eq h (hi.n i), h.log, h.term, h.vf]
    rw [e]
    exact h.vcalls _

theorem stepDown_vframes (n : NodeSt N D) (vs : List (VFrame N)) (t : Nat) (ok : Bool) :
    stepDown { n with vframes := vs } t ok = { stepDown n t ok with vframes := vs } := by
  rw [stepDown_eq, stepDown_eq]

/-- An answer to a request: a vote that was granted before is granted again. -/
theorem sim_answer {a : Sys N D} (hi : Inv c0 a) (h : NR c0 a.g ev i c (a.node i)) (f : VFrame N)
    (hf : Msg.rv f.reqTerm f.cand f.claim ∈ a.g.msgs) (hne : f.cand ≠ i) (rj ds : Bool) :
    Tr c0 i ev a (c, [voteAnswer i c f rj ds], []) := by
  by_cases hgr : f.reqTerm = c.term ∧ c.vote = some f.cand
  · have hsim : Sim1 c0 i a (eff c0 a (.voteAgain i f.reqTerm f.cand)) := sim_act i _ rfl
      ⟨⟨_, hf, _, rfl⟩, hne, by rw [h.term]; exact hgr.1.symm, by rw [h.vote]; exact hgr.2⟩
    refine ⟨_, hsim, ?_, ?_, by simp⟩
    · exact h.mono hsim.sub (fun e he => he)
    · intro m hx
      simp only [List.mem_singleton] at hx
      subst hx
      intro _
      simp [eff, Glob.send]
  · refine Tr.stayM h ?_
    intro m hx
    simp only [List.mem_singleton] at hx
    subst hx
    intro hx
    exact absurd (by simpa using hx) hgr

theorem NR.voted (h : NR c0 g ev i c n) (v pv : Option N) (pt : Nat) :
    NR c0 g ev i { c with vote := v, pterm := pt, pvote := pv }
      { n with vote := v, pterm := pt, pvote := pv } :=
  { h with
    vote := rfl
    pterm := rfl
    pvote := rfl
    el := fun f hf => (h.el f hf).congr rfl rfl rfl rfl rfl rfl
    lead := fun hx => { h.lead hx with }
    repl := fun f hf => by
      refine ⟨(h.repl f hf).1, (h.repl f hf).2.1, fun h1 h2 => ?_⟩
      have := (h.repl f hf).2.2 h1 h2
      cases f <;> exact this }

/-- `voteFinish` after the term has been raised. -/
def castFrom (n1 : NodeSt N D) (f : VFrame N) (ok grantOk : Bool) : NodeSt N D × Bool :=
  if idLe f.lastId f.claim ∧ n1.vote = none then
    let n2 := stepDown n1 f.reqTerm ok
    if grantOk then
      ({ n2 with vote := some f.cand, pterm := n2.term, pvote := some f.cand }, true)
    else (n2, false)
  else (n1, false)

theorem voteFinish_eq (n : NodeSt N D) (f : VFrame N) (ok grantOk : Bool) :
    voteFinish n f ok grantOk =
      castFrom { (if n.term < f.reqTerm then stepDown n f.reqTerm ok else n) with
        vframes := n.vframes.erase f } f ok grantOk := rfl

theorem NR.voteCast (h : NR c0 g ev i c n) (hn : NodeInv c0 g i n) (f : VFrame N) (ok grantOk : Bool)
    (hle : c.term ≤ f.reqTerm) :
    NR c0 g ev i (sVoteCast { c with vcalls := c.vcalls.erase f } f ok grantOk)
      (voteFinish n f ok grantOk).1 := by
  have hv : NR c0 g ev i { c with vcalls := c.vcalls.erase f }
      { n with vframes := n.vframes.erase f } := by
    rw [h.vf]; exact h.vcalls _
  have e1 : ({ (if n.term < f.reqTerm then Raft.stepDown n f.reqTerm ok else n) with
        vframes := n.vframes.erase f } : NodeSt N D) =
      (if n.term < f.reqTerm then Raft.stepDown { n with vframes := n.vframes.erase f } f.reqTerm ok
        else { n with vframes := n.vframes.erase f }) := by
    by_cases hlt : n.term < f.reqTerm
    · rw [if_pos hlt, if_pos hlt]; exact (stepDown_vframes n _ _ _).symm
    · rw [if_neg hlt, if_neg hlt]
  have h1 : NR c0 g ev i
      (if c.term < f.reqTerm then sStepDown { c with vcalls := c.vcalls.erase f } f.reqTerm ok
        else { c with vcalls := c.vcalls.erase f })
      (if n.term < f.reqTerm then Raft.stepDown { n with vframes := n.vframes.erase f } f.reqTerm ok
        else { n with vframes := n.vframes.erase f }) := by
    have hx := h.term
    by_cases hlt : n.term < f.reqTerm
    · rw [if_pos hlt, if_pos (by omega)]; exact hv.stepDown _ _ (Or.inl (by show c.term < f.reqTerm; omega))
    · rw [if_neg hlt, if_neg (by omega)]; exact hv
  have hnf : ∀ f' ∈ c.elects, f'.term = f.reqTerm → c.term = f.reqTerm ∧ c.vote = some i := by
    intro f' hf' he
    have hle' := (h.el f' hf').le
    have hce : c.term = f.reqTerm := by omega
    refine ⟨hce, ?_⟩
    have h1 := ((h.el f' hf').now (by omega)).1
    rw [← h.vote]
    exact ((hn.elec _ h1).2 (by rw [h.term]; omega)).1
  have hq : ∀ f' ∈ (if c.term < f.reqTerm then
        sStepDown { c with vcalls := c.vcalls.erase f } f.reqTerm ok
        else { c with vcalls := c.vcalls.erase f }).elects,
      f'.term = f.reqTerm → (if c.term < f.reqTerm then
        sStepDown { c with vcalls := c.vcalls.erase f } f.reqTerm ok
        else { c with vcalls := c.vcalls.erase f }).vote = some i := by
    intro f' hf' he
    have hf'' : f' ∈ c.elects := by
      revert hf'; split <;> exact fun x => x
    obtain ⟨e1, e2⟩ := hnf f' hf'' he
    rw [if_neg (by omega)]; exact e2
  rw [voteFinish_eq, e1]
  generalize (if n.term < f.reqTerm then
      Raft.stepDown { n with vframes := n.vframes.erase f } f.reqTerm ok
      else { n with vframes := n.vframes.erase f }) = n1 at h1 ⊢
  unfold sVoteCast castFrom
  dsimp only
  have ht1 : f.reqTerm = (if c.term < f.reqTerm then
        sStepDown { c with vcalls := c.vcalls.erase f } f.reqTerm ok
        else { c with vcalls := c.vcalls.erase f }).term := by
    split
    · rename_i hh
      rw [sStepDown_term]
      show f.reqTerm = max c.term f.reqTerm
      omega
    · rename_i hh
      show f.reqTerm = c.term
      omega
  generalize (if c.term < f.reqTerm then sStepDown { c with vcalls := c.vcalls.erase f } f.reqTerm ok
        else { c with vcalls := c.vcalls.erase f }) = c1 at h1 ht1 hq ⊢
  rw [h1.vote]
  by_cases hx : idLe f.lastId f.claim = true ∧ c1.vote = none
  · rw [if_pos hx, if_pos hx]
    have h2 := h1.stepDown f.reqTerm ok (by
      rcases Nat.lt_or_ge c1.term f.reqTerm with hlt | hge
      · exact Or.inl hlt
      · right
        intro f' hf' he
        have := hq f' hf' (by omega)
        rw [hx.2] at this; cases this)
    cases grantOk with
    | true =>
      simp only [if_true]
      have := h2.voted (some f.cand) (some f.cand) (Raft.stepDown n1 f.reqTerm ok).term
      rw [h2.term] at this ⊢
      exact this
    | false =>
      simp only [Bool.false_eq_true, if_false]
      have e2 : (sStepDown c1 f.reqTerm ok).vote = none := by
        simp only [sStepDown]
        rw [hx.2]; split <;> rfl
      have e3 : ({ sStepDown c1 f.reqTerm ok with vote := none } : Srv N D) =
          sStepDown c1 f.reqTerm ok := by
        rw [← e2]
      rw [e3]; exact h2
  · rw [if_neg hx, if_neg hx]; exact h1

theorem sim_voteReqB {a : Sys N D} (hi : Inv c0 a) (h : NR c0 a.g ev i c (a.node i)) (f : VFrame N)
    (free ok grantOk : Bool) (hf : f ∈ c.vcalls)
    (hs : f.savedTerm ≠ c.term ∨ f.lastId = lastId c.log) :
    Tr c0 i ev a (sVoteReqB i c f free ok grantOk) := by
  have hfv : f ∈ (a.node i).vframes := by rw [h.vf]; exact hf
  obtain ⟨v1, v2, v3⟩ := (hi.n i).vf f hfv
  have hdrop : ∀ rj ds, Tr c0 i ev a ({ c with vcalls := c.vcalls.erase f },
      [voteAnswer i { c with vcalls := c.vcalls.erase f } f rj ds], []) := by
    intro rj ds
    have hsim : Sim1 c0 i a (eff c0 a (.voteDrop i f)) := sim_act i _ rfl hfv
    refine Tr.after hsim (sim_answer (hsim.inv hi) ?_ f (hsim.sub.msgs _ v1) v3 rj ds)
    simp only [eff, setNode, updF_same, h.vf]
    exact h.vcalls _
  unfold sVoteReqB
  dsimp only
  by_cases k1 : f.savedTerm ≠ c.term
  · rw [if_pos k1]; exact hdrop _ _
  rw [if_neg k1]
  by_cases k2 : ¬ free = true
  · rw [if_pos k2]; exact hdrop _ _
  rw [if_neg k2]
  have k1' : f.savedTerm = c.term := Decidable.not_not.mp k1
  have hsim : Sim1 c0 i a (eff c0 a (.voteEnd i f ok grantOk)) := sim_act i _ rfl
    ⟨hfv, by rw [h.term]; exact k1', fun _ => by rw [h.log]; exact hs.resolve_left k1⟩
  have hc := h.voteCast (hi.n i) f ok grantOk (by omega)
  refine Tr.after hsim (sim_answer (hsim.inv hi) ?_ f (hsim.sub.msgs _ v1) v3 _ _)
  have hn : (eff c0 a (.voteEnd i f ok grantOk)).node i = (voteFinish (a.node i) f ok grantOk).1 := by
    simp only [eff]
    split <;> simp [setNode, updF_same]
  rw [hn]
  exact hc.mono hsim.sub (fun e he => he)

end Braft.Cl
