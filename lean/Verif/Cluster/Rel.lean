import Verif.Cluster.Server
import Verif.Raft.StepsD
import Verif.Raft.Static
/-
The relation between a cluster of servers (Verif/Cluster/Server.lean) and the cluster model
(Verif/Raft/Model.lean).
-/
set_option linter.unusedVariables false
set_option linter.unusedSimpArgs false
set_option linter.unusedSectionVars false

namespace Braft.Cl
open Braft.Raft
variable {N D : Type} [DecidableEq N] [DecidableEq D]

/-- All environment assumptions of the abstract model. -/
abbrev Norm : Params := ⟨true, true, true, true, true⟩

/-- All environment assumptions. -/
abbrev CNorm : CParams := ⟨Norm, true, true, true⟩

def roleOf : St → Role
  | .leader => .leader
  | .transferring => .leader
  | .candidate => .candidate
  | .follower => .follower

/-- A disk queue step and its abstract counterpart. -/
inductive JR : Job N D → Op N D → Prop where
  | push (e) : JR (.push e) (.push e)
  | pop : JR .pop .pop
  | snap (K) : JR (.snap K) (.snap K)
  | follower (t n c) (l : N) (m : Log N D) : JR (.follower t m.length n c l) (.ackF t m c)
  | leader (first n) (m : Log N D) (h : first + n - 1 = m.length) : JR (.leader first n) (.ackL m)

/-- Two disk queues, step by step. -/
inductive QR : List (Job N D) → List (Op N D) → Prop where
  | nil : QR [] []
  | cons {j o q q'} : JR j o → QR q q' → QR (j :: q) (o :: q')

def RFrame.term : RFrame N → Nat
  | .send t _ _ _ _ => t
  | .ack t _ _ _ => t

/-- What is known of a replicator's pending access while its leadership lasts. -/
def RFOk (g : Glob N D) (c : Srv N D) : RFrame N → Prop
  | .send _ _ prev pt cm => prev ≤ c.log.length ∧ pt = termAt c.log prev ∧ cm ≤ c.bb.lastCommitted
  | .ack t w _ last => Msg.ar t w last ∈ g.msgs

/-- The ballot box of a leader. -/
structure LB (c0 : Conf N) (g : Glob N D) (c : Srv N D) : Prop where
  pos : 0 < c.bb.pending
  len : c.bb.pending + c.bb.queue.length = c.log.length + 1
  lc : c.bb.lastCommitted < c.bb.pending
  tm : ∀ k, c.bb.pending ≤ k → k ≤ c.log.length → termAt c.log k = c.term
  bal : ∃ S : Nat → N → Bool,
    (∀ k (hk : k < c.bb.queue.length),
      Ballot.Inv (confOf c0 (c.log.take (c.bb.pending + k))).peers
        (oldOf (confOf c0 (c.log.take (c.bb.pending + k)))) (S (c.bb.pending + k)) c.bb.queue[k]) ∧
    ∀ k v, S k v = true → ∃ u, k ≤ u ∧ Msg.ar c.term v u ∈ g.msgs

/-- A pending `elect_self`. -/
structure EOk (g : Glob N D) (i : N) (c : Srv N D) (n : NodeSt N D) (f : EFrame) : Prop where
  le : f.term ≤ c.term
  rest : f.rest ≤ c.queue.length
  claim : (0 < f.rest ∧ f.claim = lastId (drainJobs c.disk (c.queue.take f.rest))) ∨
    (∃ o ∈ g.hist i, f.claim = lastId o)
  now : f.term = c.term → n.elect = some f.term ∧ c.state.leads = false ∧ n.ready = false ∧
    noLeaderJob (c.queue.drop f.rest) = true

/-- A node and its abstract counterpart. A node that steps down within its term may be a candidate
of the abstract model still (`role`), until it knows the leader of the term: when `elect_self` is
pending, it can become leader with its own vote only (`pend`). -/
structure NR (c0 : Conf N) (g : Glob N D) (ev : List (Ev N D)) (i : N) (c : Srv N D)
    (n : NodeSt N D) : Prop where
  term : n.term = c.term
  vote : n.vote = c.vote
  role : n.role = roleOf c.state ∨
    (c.state = .follower ∧ n.role = .candidate ∧ c.leaderId = none)
  pterm : n.pterm = c.pterm
  pvote : n.pvote = c.pvote
  log : n.log = c.log
  disk : n.disk = c.disk
  snap : n.snap = c.snap
  psnap : n.psnap = c.psnap
  dl : n.dl = c.dl
  applied : n.applied = c.applied
  sm : n.sm = c.sm
  queue : QR c.queue n.queue
  commit : n.commit = c.bb.lastCommitted
  vf : n.vframes = c.vcalls
  el : ∀ f ∈ c.elects, EOk g i c n f
  eln : (c.elects.map EFrame.term).Nodup
  sn : n.snap ∈ g.hist i
  cand : c.state = .candidate → ∃ S : N → Bool,
    Ballot.Inv n.bconf.peers (oldOf n.bconf) S c.ctx.ballot ∧
    ∀ v, S v = true → n.ready = true ∧ (v = i ∨ Msg.vr c.term v i ∈ g.msgs)
  rpc : c.state = .candidate →
    (∃ r ∈ c.rpcs, r.version = c.ctx.version) ∨ c.ctx.version ∈ c.timers → n.ready = true
  pend : c.state = .follower → ∀ f ∈ c.elects, f.term = c.term →
    (n.role = .candidate ∨ ¬ n.bconf.Quorum (fun v => decide (v = i))) ∧
    Ballot.Inv n.bconf.peers (oldOf n.bconf) (fun _ => false) c.ctx.ballot ∧
    c.ctx.version ∉ c.timers
  vrs : (∀ r ∈ c.rpcs, r.version ≤ c.ctx.version) ∧ ∀ v ∈ c.timers, v ≤ c.ctx.version
  ask : c.state = .candidate → n.ready = true → Msg.rv c.term i c.ctx.lastId ∈ g.msgs
  lead : c.state.leads = true → LB c0 g c
  fol : c.state.leads = false → c.bb.pending = 0 ∧ c.bb.queue = []
  me : c.state.leads = true → Ev.lead i c.term ∈ ev
  lid : ∀ l, c.leaderId = some l → Ev.lead l c.term ∈ ev
  repl : ∀ f ∈ c.repl, f.term ≤ c.term ∧ (n.role = .candidate → f.term < c.term) ∧
    (c.state.leads = true → f.term = c.term → RFOk g c f)

/-- A message and its abstract counterpart. -/
def MR (gm : List (Msg N D)) (ev : List (Ev N D)) : CMsg N D → Prop
  | .rvReq t cnd to cl _ => to ≠ cnd ∧ Msg.rv t cnd cl ∈ gm
  | .rvRes t v cnd gr _ _ _ _ => gr = true → Msg.vr t v cnd ∈ gm
  | .aeReq t l _ prev pt es cm => Msg.ae t prev pt es cm ∈ gm ∧ Ev.lead l t ∈ ev
  | .aeRes t _ w ok _ upTo k => ok = true → 0 < k → Msg.ar t w upTo ∈ gm
  | .isReq t l _ K => Msg.is t K ∈ gm ∧ Ev.lead l t ∈ ev

/-- An event and its abstract counterpart. -/
def ER (g : Glob N D) (ev : List (Ev N D)) : Ev N D → Prop
  | .lead i t => ∃ r ∈ g.elections, r.node = i ∧ r.term = t
  | .follow _ l t => Ev.lead l t ∈ ev
  | .applied i k e => (i, k, e) ∈ g.applies

structure SR (c0 : Conf N) (s : CSys N D) (a : Sys N D) : Prop where
  node : ∀ i, NR c0 a.g s.ev i (s.node i) (a.node i)
  msg : ∀ m ∈ s.msgs, MR a.g.msgs s.ev m
  ev : ∀ e ∈ s.ev, ER a.g s.ev e

/-! ### Monotony -/

structure GSub (g g' : Glob N D) : Prop where
  msgs : ∀ m ∈ g.msgs, m ∈ g'.msgs
  hist : ∀ i, ∀ o ∈ g.hist i, o ∈ g'.hist i
  elections : ∀ r ∈ g.elections, r ∈ g'.elections
  applies : ∀ a ∈ g.applies, a ∈ g'.applies

theorem GSub.refl (g : Glob N D) : GSub g g :=
  ⟨fun _ h => h, fun _ _ h => h, fun _ h => h, fun _ h => h⟩

theorem GSub.trans {a b c : Glob N D} (h1 : GSub a b) (h2 : GSub b c) : GSub a c :=
  ⟨fun m h => h2.msgs m (h1.msgs m h), fun i m h => h2.hist i m (h1.hist i m h),
   fun m h => h2.elections m (h1.elections m h), fun m h => h2.applies m (h1.applies m h)⟩

theorem mem_held (g : Glob N D) (i j : N) (l o : Log N D) (h : o ∈ g.hist j) :
    o ∈ (g.held i l).hist j := by
  simp only [Glob.held, updF]
  split
  · rename_i e; subst e; exact List.mem_cons_of_mem _ h
  · exact h

theorem hist_eff (c0 : Conf N) (s : Sys N D) (a : Act N D) (i : N) (o : Log N D)
    (h : o ∈ s.g.hist i) : o ∈ (eff c0 s a).g.hist i := by
  cases a <;> simp only [eff, sysAppend, lead, setNode, Glob.send, Glob.voted] <;>
    first
    | exact h
    | exact mem_held _ _ _ _ _ h
    | skip
  · split <;> exact h
  · split <;> exact h
  · simp only [diskStep]
    split
    · exact h
    · split
      · exact mem_held _ _ _ _ _ h
      · exact mem_held _ _ _ _ _ h
      · exact mem_held _ _ _ _ _ h
      · split
        · simp only [Glob.ack]; exact mem_held _ _ _ _ _ h
        · exact mem_held _ _ _ _ _ h
      · split
        · simp only [Glob.ack]; exact mem_held _ _ _ _ _ h
        · exact mem_held _ _ _ _ _ h

theorem gsub_eff (c0 : Conf N) (s : Sys N D) (a : Act N D) : GSub s.g (eff c0 s a).g :=
  ⟨(gle_eff c0 s a).msgs, fun i o h => hist_eff c0 s a i o h, (gle_eff c0 s a).elections,
   (gle_eff c0 s a).applies⟩

theorem RFOk.mono {g g' : Glob N D} (hg : GSub g g') {c : Srv N D} {f : RFrame N}
    (h : RFOk g c f) : RFOk g' c f := by
  cases f with
  | send => exact h
  | ack => exact hg.msgs _ h

theorem LB.mono {c0 : Conf N} {g g' : Glob N D} (hg : GSub g g') {c : Srv N D}
    (h : LB c0 g c) : LB c0 g' c := by
  obtain ⟨S, h1, h2⟩ := h.bal
  exact { h with
    bal := ⟨S, h1, fun k v hv => by
      obtain ⟨u, hu, hm⟩ := h2 k v hv
      exact ⟨u, hu, hg.msgs _ hm⟩⟩ }

theorem EOk.mono {g g' : Glob N D} (hg : GSub g g') {i : N} {c : Srv N D} {n : NodeSt N D}
    {f : EFrame} (h : EOk g i c n f) : EOk g' i c n f :=
  { h with
    claim := h.claim.imp id (fun ⟨o, ho, he⟩ => ⟨o, hg.hist i o ho, he⟩) }

theorem NR.mono {c0 : Conf N} {g g' : Glob N D} (hg : GSub g g') {ev ev' : List (Ev N D)}
    (he : ∀ e ∈ ev, e ∈ ev') {i : N} {c : Srv N D} {n : NodeSt N D} (h : NR c0 g ev i c n) :
    NR c0 g' ev' i c n :=
  { h with
    el := fun f hf => (h.el f hf).mono hg
    sn := hg.hist i _ h.sn
    cand := fun hc => by
      obtain ⟨S, h1, h2⟩ := h.cand hc
      exact ⟨S, h1, fun v hv => ⟨(h2 v hv).1, (h2 v hv).2.imp id (hg.msgs _)⟩⟩
    ask := fun h1 h2 => hg.msgs _ (h.ask h1 h2)
    lead := fun hl => (h.lead hl).mono hg
    me := fun hl => he _ (h.me hl)
    lid := fun l hl => he _ (h.lid l hl)
    repl := fun f hf => ⟨(h.repl f hf).1, (h.repl f hf).2.1, fun h1 h2 => ((h.repl f hf).2.2 h1 h2).mono hg⟩ }

theorem MR.mono {g g' : Glob N D} (hg : GSub g g') {ev ev' : List (Ev N D)}
    (he : ∀ e ∈ ev, e ∈ ev') {m : CMsg N D} (h : MR g.msgs ev m) : MR g'.msgs ev' m := by
  cases m with
  | rvReq => exact ⟨h.1, hg.msgs _ h.2⟩
  | rvRes => exact fun hg' => hg.msgs _ (h hg')
  | aeReq => exact ⟨hg.msgs _ h.1, he _ h.2⟩
  | aeRes => exact fun h1 h2 => hg.msgs _ (h h1 h2)
  | isReq => exact ⟨hg.msgs _ h.1, he _ h.2⟩

theorem ER.mono {g g' : Glob N D} (hg : GSub g g') {ev ev' : List (Ev N D)}
    (he : ∀ e ∈ ev, e ∈ ev') {e : Ev N D} (h : ER g ev e) : ER g' ev' e := by
  cases e with
  | lead i t => obtain ⟨r, h1, h2⟩ := h; exact ⟨r, hg.elections r h1, h2⟩
  | follow => exact he _ h
  | applied => exact hg.applies _ h

/-! ### Abstract executions at one node -/

structure Sim1 (c0 : Conf N) (i : N) (a a' : Sys N D) : Prop where
  steps : Steps Norm c0 a a'
  other : ∀ j, j ≠ i → a'.node j = a.node j
  sub : GSub a.g a'.g

theorem Sim1.refl (c0 : Conf N) (i : N) (a : Sys N D) : Sim1 c0 i a a :=
  ⟨.refl, fun _ _ => rfl, GSub.refl _⟩

theorem steps_trans {p : Params} {c0 : Conf N} {a b c : Sys N D} (h1 : Steps p c0 a b)
    (h2 : Steps p c0 b c) : Steps p c0 a c := by
  induction h2 with
  | refl => exact h1
  | tail _ hs ih => exact .tail ih hs

theorem Sim1.trans {c0 : Conf N} {i : N} {a b c : Sys N D} (h1 : Sim1 c0 i a b)
    (h2 : Sim1 c0 i b c) : Sim1 c0 i a c :=
  ⟨steps_trans h1.steps h2.steps, fun j hj => (h2.other j hj).trans (h1.other j hj),
   h1.sub.trans h2.sub⟩

/-- The node an abstract action happens at. -/
def actAt : Act N D → N
  | .raiseTerm i _ _ => i
  | .electStart i => i
  | .electSend i _ => i
  | .electCrash i _ => i
  | .electFail i _ => i
  | .becomeLeader i _ => i
  | .voteBegin i _ _ _ => i
  | .voteEnd i _ _ _ => i
  | .voteDrop i _ => i
  | .voteAgain i _ _ => i
  | .propose i _ => i
  | .changeConf i _ => i
  | .sendAE i _ _ _ => i
  | .recvAE i _ _ _ _ _ _ _ => i
  | .disk i => i
  | .commit i _ _ => i
  | .apply i => i
  | .crash i => i
  | .saveSnap i _ => i
  | .sendIS i => i
  | .recvIS i _ _ _ => i
  | .copied i => i
  | .loaded i => i
  | .dlDrop i => i

theorem eff_other (c0 : Conf N) (s : Sys N D) (a : Act N D) (j : N) (h : j ≠ actAt a) :
    (eff c0 s a).node j = s.node j := by
  cases a <;> simp only [actAt] at h <;>
    simp only [eff, sysAppend, lead, setNode, updF_other _ _ h] <;> try rfl
  · split <;> simp [updF_other _ _ h]
  · split <;> simp [updF_other _ _ h]
  · simp only [diskStep]
    split
    · rfl
    · split
      · simp [updF_other _ _ h]
      · simp [updF_other _ _ h]
      · simp [updF_other _ _ h]
      · split <;> simp [updF_other _ _ h]
      · split <;> simp [updF_other _ _ h]

theorem sim_act {c0 : Conf N} {a : Sys N D} (i : N) (x : Act N D) (hi : actAt x = i)
    (h : pre Norm c0 a x) : Sim1 c0 i a (eff c0 a x) :=
  ⟨.tail .refl ⟨x, h, rfl⟩, fun j hj => eff_other c0 a x j (by rw [hi]; exact hj), gsub_eff c0 a x⟩

theorem Sim1.inv {c0 : Conf N} {i : N} {a a' : Sys N D} (h : Sim1 c0 i a a') (hi : Inv c0 a) :
    Inv c0 a' := inv_steps hi h.steps

/-- A handler's result is matched by the abstract model. -/
def Tr (c0 : Conf N) (i : N) (ev : List (Ev N D)) (a : Sys N D) (r : Res N D) : Prop :=
  ∃ a', Sim1 c0 i a a' ∧ NR c0 a'.g (r.2.2 ++ ev) i r.1 (a'.node i) ∧
    (∀ m ∈ r.2.1, MR a'.g.msgs (r.2.2 ++ ev) m) ∧ ∀ e ∈ r.2.2, ER a'.g (r.2.2 ++ ev) e

/-- Nothing abstract happens. -/
theorem Tr.stay {c0 : Conf N} {i : N} {ev : List (Ev N D)} {a : Sys N D} {c : Srv N D}
    (h : NR c0 a.g ev i c (a.node i)) : Tr c0 i ev a (c, [], []) :=
  ⟨a, Sim1.refl _ _ _, by simpa using h, by simp, by simp⟩

theorem Tr.after {c0 : Conf N} {i : N} {ev : List (Ev N D)} {a a1 : Sys N D} {r : Res N D}
    (h1 : Sim1 c0 i a a1) (h2 : Tr c0 i ev a1 r) : Tr c0 i ev a r := by
  obtain ⟨a', h3, h4⟩ := h2
  exact ⟨a', h1.trans h3, h4⟩

/-- The simulation of a step from the simulation of a handler. -/
theorem SR.of_tr {c0 : Conf N} {s : CSys N D} {a : Sys N D} (h : SR c0 s a) {i : N} {r : Res N D}
    (ht : Tr c0 i s.ev a r) :
    ∃ a', Steps Norm c0 a a' ∧
      SR c0 { node := updF s.node i r.1, msgs := r.2.1 ++ s.msgs, ev := r.2.2 ++ s.ev } a' := by
  obtain ⟨a', h1, h2, h3, h4⟩ := ht
  refine ⟨a', h1.steps, ?_, ?_, ?_⟩
  · intro j
    by_cases hj : j = i
    · subst hj; simp only [updF_same]; exact h2
    · simp only [updF_other _ _ hj, h1.other j hj]
      exact (h.node j).mono h1.sub (fun e he => List.mem_append_right _ he)
  · intro m hm
    rcases List.mem_append.mp hm with hm | hm
    · exact h3 m hm
    · exact (h.msg m hm).mono h1.sub (fun e he => List.mem_append_right _ he)
  · intro e he
    rcases List.mem_append.mp he with he | he
    · exact h4 e he
    · exact (h.ev e he).mono h1.sub (fun e he => List.mem_append_right _ he)

/-! ### Queues -/

theorem JR.apply {j : Job N D} {o : Op N D} (h : JR j o) (d : Log N D) :
    applyJob d j = applyOp d o := by
  cases h <;> rfl

theorem drain_rel {q : List (Job N D)} {q' : List (Op N D)} (h : QR q q') :
    ∀ d : Log N D, drainJobs d q = drain d q' := by
  induction h with
  | nil => intro d; rfl
  | cons h1 _ ih =>
    intro d
    simp only [drainJobs, drain, List.foldl_cons, h1.apply] at ih ⊢
    exact ih _

theorem noLeader_rel {q : List (Job N D)} {q' : List (Op N D)} (h : QR q q') :
    noLeaderJob q = noAckL q' := by
  induction h with
  | nil => rfl
  | cons h1 _ ih =>
    simp only [noLeaderJob, noAckL, List.all_cons] at ih ⊢
    rw [ih]
    cases h1 <;> rfl

theorem forall2_append {q1 q2 : List (Job N D)} {p1 p2 : List (Op N D)}
    (h1 : QR q1 p1) (h2 : QR q2 p2) :
    QR (q1 ++ q2) (p1 ++ p2) := by
  induction h1 with
  | nil => exact h2
  | cons h _ ih => exact .cons h ih

theorem forall2_pushes (es : List (Entry N D)) :
    QR (es.map Job.push) (es.map Op.push) := by
  induction es with
  | nil => exact .nil
  | cons e es ih => exact .cons (.push e) ih

theorem forall2_pops (k : Nat) :
    QR (N := N) (D := D) (List.replicate k .pop) (List.replicate k .pop) := by
  induction k with
  | zero => exact .nil
  | succ k ih => exact .cons .pop ih

theorem forall2_resolve (l : Log N D) (prev : Nat) (es : List (Entry N D)) :
    QR (resolveJobs l prev es) (resolveOps l prev es) := by
  simp only [resolveJobs, resolveOps]
  refine forall2_append ?_ (forall2_pushes _)
  split
  · exact forall2_pops _
  · exact .nil

theorem noLeader_append (q q' : List (Job N D)) :
    noLeaderJob (q ++ q') = (noLeaderJob q && noLeaderJob q') := by
  simp [noLeaderJob]

theorem noLeader_pushes (es : List (Entry N D)) : noLeaderJob (es.map Job.push) = true := by
  induction es with
  | nil => rfl
  | cons e es ih => simpa [noLeaderJob] using ih

theorem noLeader_resolve (l : Log N D) (prev : Nat) (es : List (Entry N D)) :
    noLeaderJob (resolveJobs l prev es) = true := by
  simp only [resolveJobs, noLeader_append, Bool.and_eq_true]
  constructor
  · split <;> simp [noLeaderJob]
  · exact noLeader_pushes _

/-- Appending jobs to the queue keeps what is known of a pending `elect_self`. -/
theorem EOk.append {g : Glob N D} {i : N} {c c' : Srv N D} {n n' : NodeSt N D} {f : EFrame}
    (h : EOk g i c n f) (js : List (Job N D)) (hq : c'.queue = c.queue ++ js)
    (hd : c'.disk = c.disk) (ht : c'.term = c.term) (hs : c'.state.leads = c.state.leads)
    (he : n'.elect = n.elect) (hr : n'.ready = n.ready)
    (hn : f.term = c.term → noLeaderJob js = true) : EOk g i c' n' f where
  le := by rw [ht]; exact h.le
  rest := by rw [hq, List.length_append]; have := h.rest; omega
  claim := by
    refine h.claim.imp (fun ⟨h1, h2⟩ => ⟨h1, ?_⟩) id
    rw [hd, hq, List.take_append_of_le_length h.rest]; exact h2
  now := by
    rw [ht, he, hr, hs]
    intro hf
    obtain ⟨h1, h2, h3, h4⟩ := h.now hf
    refine ⟨h1, h2, h3, ?_⟩
    rw [hq, List.drop_append_of_le_length h.rest, noLeader_append, h4, hn hf]; rfl

/-- `EOk` only looks at a few members. -/
theorem EOk.congr {g : Glob N D} {i : N} {c c' : Srv N D} {n n' : NodeSt N D} {f : EFrame}
    (h : EOk g i c n f) (hq : c'.queue = c.queue) (hd : c'.disk = c.disk)
    (ht : c'.term = c.term) (hs : c'.state.leads = c.state.leads)
    (he : n'.elect = n.elect) (hr : n'.ready = n.ready) : EOk g i c' n' f :=
  h.append [] (by simp [hq]) hd ht hs he hr (fun _ => rfl)

end Braft.Cl
