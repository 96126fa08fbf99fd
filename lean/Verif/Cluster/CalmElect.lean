import Verif.Cluster.CalmBallot
/-
A calm continuation in which a given node is elected.
-/
set_option linter.unusedVariables false
set_option linter.unusedSimpArgs false
set_option linter.unusedSectionVars false

namespace Braft.Cl
open Braft.Raft
variable {N D : Type} [DecidableEq N] [DecidableEq D] {p : CParams} {c0 : Conf N}

/-- What an election leaves alone at the candidate. -/
structure SameL (a c : Srv N D) : Prop where
  log : c.log = a.log
  snap : c.snap = a.snap
  psnap : c.psnap = a.psnap
  dl : c.dl = a.dl
  queue : c.queue = a.queue
  applied : c.applied = a.applied

theorem SameL.refl (a : Srv N D) : SameL a a := by constructor <;> rfl

theorem SameL.trans {a b c : Srv N D} (h1 : SameL a b) (h2 : SameL b c) : SameL a c :=
  ⟨h2.log.trans h1.log, h2.snap.trans h1.snap, h2.psnap.trans h1.psnap, h2.dl.trans h1.dl, h2.queue.trans h1.queue,
   h2.applied.trans h1.applied⟩

theorem ask_settled {c : Srv N D} (f : SF c) (h : c.queue = []) : askId c = lastId c.log ∧ askRest c = 0 := by
  have hd : c.disk = c.log := by
    have := f.mem; rw [h] at this; exact this
  unfold askId askRest
  split
  · rename_i he
    refine ⟨?_, rfl⟩
    rw [(List.IsPrefix.eq_of_length f.sn he.symm)]
  · rw [h]
    refine ⟨?_, rfl⟩
    show lastId c.disk = _
    rw [hd]

/-- A candidate that has not sent its requests. -/
structure Cnd (c0 : Conf N) (a : Srv N D) (T : Nat) (c : Srv N D) : Prop where
  same : SameL a c
  state : c.state = .candidate
  term : c.term = T
  frame : (⟨T, lastId a.log, 0⟩ : EFrame) ∈ c.elects
  ballot : c.ctx.ballot = Ballot.init (confOf c0 a.log).peers (oldOf (confOf c0 a.log))
  reserved : c.ctx.reserved = []

theorem elect_once {s : CSys N D} (j : N) (f : SF (s.node j)) (hs : Settled (s.node j))
    (hl : (s.node j).state.leads = false)
    (hm : j ∈ (confOf c0 (s.node j).log).peers ∨ j ∈ (confOf c0 (s.node j).log).old) :
    ∃ s', CalmSteps p c0 s s' ∧ Only j s s' ∧ Cnd c0 (s.node j) ((s.node j).term + 1) (s'.node j) := by
  obtain ⟨s1, h1, h2, h3, -, -, -⟩ := calm_one (p := p) (c0 := c0) (s := s) j (.elect j) rfl rfl (by
    simp [cpre, hl, electOk, hs.dl, hs.queue, noLeaderJob])
  have h3 : s1.node j = sElectA c0 j (s.node j) false := h3
  obtain ⟨k1, k2⟩ := ask_settled f hs.queue
  unfold sElectA at h3
  rw [if_neg (by rintro ⟨a, b⟩; exact hm.elim a b), k1, k2] at h3
  refine ⟨s1, h1, h2, ?_⟩
  rw [h3]
  constructor
  · constructor <;> rfl
  · rfl
  · rfl
  · exact List.mem_cons_self
  · rfl
  · rfl

/-- Let the term of a node grow by elections. -/
theorem elect_calm (hp : COk p) (j : N) : ∀ (n : Nat) (s : CSys N D), CReachable p c0 s → Settled (s.node j) →
    (s.node j).state.leads = false →
    (j ∈ (confOf c0 (s.node j).log).peers ∨ j ∈ (confOf c0 (s.node j).log).old) →
    ∃ s', CalmSteps p c0 s s' ∧ Only j s s' ∧ Cnd c0 (s.node j) ((s.node j).term + (n + 1)) (s'.node j) := by
  intro n
  induction n with
  | zero => intro s hr hs hl hm; exact elect_once j ((facts_reach hp hr).1 j) hs hl hm
  | succ n ih =>
    intro s hr hs hl hm
    obtain ⟨s1, h1, h2, h3⟩ := ih s hr hs hl hm
    have hr1 := h1.reach hr
    obtain ⟨s2, g1, g2, g3⟩ := elect_once (p := p) (c0 := c0) (s := s1) j ((facts_reach hp hr1).1 j)
      ⟨h3.same.queue.trans hs.queue, h3.same.dl.trans hs.dl⟩ (by rw [h3.state]; rfl) (by rw [h3.same.log]; exact hm)
    refine ⟨s2, h1.trans g1, h2.trans g2, ?_⟩
    have e : (s1.node j).term + 1 = (s.node j).term + (n + 1 + 1) := by rw [h3.term]; omega
    rw [e] at g3
    exact
      { same := h3.same.trans g3.same, state := g3.state, term := g3.term
        frame := by have := g3.frame; rw [h3.same.log] at this; exact this
        ballot := by have := g3.ballot; rw [h3.same.log] at this; exact this
        reserved := g3.reserved }

/-- A candidate that waits for the answers of `todo`; `S` have voted for it. -/
structure Run (c0 : Conf N) (a : Srv N D) (j : N) (T : Nat) (S : N → Bool) (todo : List N) (s : CSys N D) : Prop where
  same : SameL a (s.node j)
  state : (s.node j).state = .candidate
  term : (s.node j).term = T
  ballot : Ballot.Inv (confOf c0 a.log).peers (oldOf (confOf c0 a.log)) S (s.node j).ctx.ballot
  ng : (s.node j).ctx.ballot.granted = false
  reserved : (s.node j).ctx.reserved = []
  rpcs : ∀ v ∈ todo, (⟨v, T, (s.node j).ctx.version⟩ : Rpc N) ∈ (s.node j).rpcs
  msgs : ∀ v ∈ todo, ∃ dis, CMsg.rvReq T j v (lastId a.log) dis ∈ s.msgs

/-- A new leader. -/
structure Won (c0 : Conf N) (a : Srv N D) (T : Nat) (c : Srv N D) : Prop where
  state : c.state = .leader
  term : c.term = T
  log : c.log = a.log ++ [⟨T, .conf (confOf c0 a.log)⟩]
  queue : c.queue = [.push ⟨T, .conf (confOf c0 a.log)⟩, .leader (a.log.length + 1) 1]
  snap : c.snap = a.snap
  psnap : c.psnap = a.psnap
  dl : c.dl = none
  bb : BI (confOf c0 a.log) (a.log.length + 1) (fun _ _ => false) c.bb
  pend : c.bb.pending + c.bb.queue.length = a.log.length + 2
  applied : c.applied = a.applied

theorem won_of {a c : Srv N D} {j : N} {T : Nat} (hs : Settled a) (h1 : SameL a c) (h2 : c.state = .candidate)
    (h3 : c.term = T) (hb : c.bb.queue = []) : Won c0 a T (sBecomeLeader p c0 j c).1 := by
  have e : sBecomeLeader p c0 j c =
      (sAppendOwn { c with
        ctx := c.ctx.reset, state := .leader, leaderId := some j, lastLeader := none,
        bb := c.bb.resetPendingIndex (c.log.length + 1) } (confOf c0 c.log) [⟨c.term, .conf (confOf c0 c.log)⟩], [],
        [.lead j c.term]) := by
    unfold sBecomeLeader
    rw [if_neg (by rintro ⟨h, -⟩; exact h h2)]
  rw [e]
  dsimp only [sAppendOwn, List.foldl_cons, List.foldl_nil]
  constructor
  · rfl
  · exact h3
  · dsimp only; rw [h1.log, h3]
  · dsimp only [List.map_cons, List.map_nil]; rw [h1.queue, h1.log, h3, hs.queue]; rfl
  · exact h1.snap
  · exact h1.psnap
  · exact h1.dl.trans hs.dl
  · dsimp only
    rw [h1.log]
    refine BI.append (S := fun _ _ => false) ?_ rfl (no_quorum _)
    have hq : (c.bb.resetPendingIndex (a.log.length + 1)).queue = [] := hb
    refine ⟨?_, ?_, fun k hk => ?_, fun k hk => ?_, fun h => ?_⟩
    · exact Nat.succ_pos _
    · exact Nat.le_refl _
    · rw [hq] at hk; exact absurd hk (Nat.not_lt_zero _)
    · rw [hq] at hk; exact absurd hk (Nat.not_lt_zero _)
    · exact absurd h (Nat.lt_irrefl _)
  · dsimp only [BallotBox.appendPendingTask, BallotBox.resetPendingIndex]
    rw [hb, h1.log]; rfl
  · exact h1.applied

/-- The second critical section of `elect_self`. -/
theorem electB_calm (hp : COk p) {s : CSys N D} (hr : CReachable p c0 s) (j : N) (a : Srv N D) (T : Nat) (hs : Settled a)
    (h : Cnd c0 a T (s.node j)) :
    ∃ s', CalmSteps p c0 s s' ∧ Only j s s' ∧
      (Won c0 a T (s'.node j) ∨
        Run c0 a j T (fun x => x == j) ((members (confOf c0 a.log)).filter (fun x => decide (x ≠ j))) s') := by
  obtain ⟨s1, h1, h2, h3, h4, -, -⟩ := calm_one (p := p) (c0 := c0) (s := s) j (.electB j ⟨T, lastId a.log, 0⟩ true true)
    rfl rfl (by simp [cpre, h.frame])
  have hbb : (s.node j).bb.queue = [] := ((bf_reach hp hr j).fol (by rw [h.state]; rfl)).2
  refine ⟨s1, h1, h2, ?_⟩
  have hd : ceff p c0 (s.node j) (.electB j ⟨T, lastId a.log, 0⟩ true true) =
    sElectB p c0 j (s.node j) ⟨T, lastId a.log, 0⟩ true true := rfl
  rw [hd] at h3 h4
  unfold sElectB at h3 h4
  rw [if_neg (by rw [h.term]; simp), if_pos rfl] at h3 h4
  dsimp only [sElectAsk, sRequestPeers, sGrantSelf] at h3 h4
  rw [if_pos rfl] at h3 h4
  have hinv : Ballot.Inv (confOf c0 a.log).peers (oldOf (confOf c0 a.log)) (fun x => x == j)
      ((s.node j).ctx.ballot.grant j) := by
    rw [h.ballot]
    have := inv_grant (cf := confOf c0 a.log) (Ballot.inv_init _ _) j
    simpa using this
  by_cases hg : ((s.node j).ctx.ballot.grant j).granted = true
  · rw [if_pos hg] at h3
    left
    rw [h3]
    refine won_of hs ?_ h.state h.term hbb
    exact ⟨h.same.log, h.same.snap, h.same.psnap, h.same.dl, h.same.queue, h.same.applied⟩
  · right
    rw [if_neg hg] at h3 h4
    have hlog : (s.node j).log = a.log := h.same.log
    rw [hlog] at h3 h4
    refine ⟨?_, ?_, ?_, ?_, ?_, ?_, ?_, ?_⟩
    · rw [h3]; exact ⟨rfl, h.same.snap, h.same.psnap, h.same.dl, h.same.queue, h.same.applied⟩
    · rw [h3]; exact h.state
    · rw [h3]; exact h.term
    · rw [h3]; exact hinv
    · rw [h3]; exact Bool.eq_false_iff.mpr hg
    · rw [h3]; exact h.reserved
    · intro v hv
      rw [h3]
      refine List.mem_append_left _ (List.mem_map.mpr ⟨v, hv, ?_⟩)
      dsimp only
      rw [h.term]
    · intro v hv
      have h5 := h4 _ (List.mem_append_right _ (List.mem_map.mpr ⟨v, hv, rfl⟩))
      rw [h.term] at h5
      exact ⟨_, h5⟩

/-- A voter that has not heard of the candidate's term and whose log is not ahead. -/
structure Voter (a : Srv N D) (T : Nat) (c : Srv N D) : Prop where
  settled : Settled c
  term : c.term < T
  le : idLe (lastId c.log) (lastId a.log) = true

/-- What voting leaves alone at the voter. -/
structure Voted (a : Srv N D) (T : Nat) (c c' : Srv N D) : Prop where
  same : SameL c c'
  term : c'.term = T
  state : c'.state = .follower
  leaderId : c'.leaderId = none
  pterm : c'.pterm = T

theorem cast_ok (c : Srv N D) (f : VFrame N) (ht : c.term < f.reqTerm) (hle : idLe f.lastId f.claim = true) :
    SameL c (sVoteCast c f true true) ∧ (sVoteCast c f true true).term = f.reqTerm ∧
    (sVoteCast c f true true).state = .follower ∧ (sVoteCast c f true true).leaderId = none ∧
    (sVoteCast c f true true).vote = some f.cand ∧ (sVoteCast c f true true).pterm = f.reqTerm := by
  have e1 : (sStepDown c f.reqTerm true).vote = none := by simp [sStepDown, ht]
  have e2 : (sStepDown c f.reqTerm true).term = f.reqTerm := by simp [sStepDown, ht]
  unfold sVoteCast
  dsimp only
  rw [if_pos ht, if_pos ⟨hle, e1⟩, if_pos rfl]
  have e3 : (sStepDown (sStepDown c f.reqTerm true) f.reqTerm true).term = f.reqTerm := by
    generalize sStepDown c f.reqTerm true = c1 at e2
    simp [sStepDown, e2]
  exact ⟨by constructor <;> rfl, e3, rfl, rfl, rfl, e3⟩

/-- A voter answers the candidate. -/
theorem vote_calm (hp : COk p) {s : CSys N D} (hr : CReachable p c0 s) (j v : N) (a : Srv N D) (T : Nat)
    (hv : Voter a T (s.node v)) {dis} (hm : CMsg.rvReq T j v (lastId a.log) dis ∈ s.msgs) :
    ∃ s', CalmSteps p c0 s s' ∧ Only v s s' ∧ Voted a T (s.node v) (s'.node v) ∧
      ∃ d pt, CMsg.rvRes T v j true false d T pt ∈ s'.msgs := by
  obtain ⟨k1, k2⟩ := ask_settled ((facts_reach hp hr).1 v) hv.settled.queue
  obtain ⟨s1, h1, h2, h3, -, -, -⟩ := calm_one (p := p) (c0 := c0) (s := s) v (.voteReq v T j (lastId a.log) dis) rfl rfl (by
    simp [cpre, hm])
  have h3 : s1.node v = (sVoteReqA v (s.node v) T j (lastId a.log)).1 := h3
  unfold sVoteReqA at h3
  have ht := hv.term
  rw [if_neg (by omega), k1] at h3
  dsimp only at h3
  generalize hf : (⟨T, j, lastId a.log, (s.node v).term, lastId (s.node v).log⟩ : VFrame N) = f at h3
  obtain ⟨s2, g1, g2, g3, g4, -, -⟩ := calm_one (p := p) (c0 := c0) (s := s1) v (.voteReqB v f true true true) rfl rfl (by
    have e1 : f ∈ (s1.node v).vcalls := by rw [h3]; exact List.mem_cons_self
    have e2 : f.lastId = lastId (s1.node v).log := by rw [h3, ← hf]
    simp [cpre, e1, e2])
  have hd : ceff p c0 (s1.node v) (.voteReqB v f true true true) = sVoteReqB v (s1.node v) f true true true := rfl
  rw [hd] at g3 g4
  have hst : f.savedTerm = (s1.node v).term := by rw [h3, ← hf]
  unfold sVoteReqB at g3 g4
  rw [if_neg (by rw [hst]; simp), if_neg (by simp)] at g3 g4
  dsimp only at g3 g4
  have hfr : f.reqTerm = T := by rw [← hf]
  have hfc : f.cand = j := by rw [← hf]
  have htm : (s1.node v).term = (s.node v).term := by rw [h3]
  obtain ⟨e1, e2, e3, e4, e5, e6⟩ := cast_ok { s1.node v with vcalls := (s1.node v).vcalls.erase f } f
    (by rw [hfr]; exact htm ▸ ht) (by rw [← hf]; exact hv.le)
  rw [hfr] at e2 e6
  rw [hfc] at e5
  refine ⟨s2, h1.trans g1, h2.trans g2, ⟨?_, ?_, ?_, ?_, ?_⟩, ?_⟩
  · rw [g3]; exact SameL.trans (by rw [h3]; constructor <;> rfl) e1
  · rw [g3]; exact e2
  · rw [g3]; exact e3
  · rw [g3]; exact e4
  · rw [g3]; exact e6
  · refine ⟨decide ((s1.node v).term < f.reqTerm) && (s1.node v).state.leads, f.savedTerm,
      g4 _ (List.mem_singleton.mpr ?_)⟩
    unfold voteAnswer
    rw [hfr, hfc, e2, e5]
    simp only [and_self, decide_true]

/-- The candidate counts a vote. -/
theorem count_calm (hp : COk p) {s : CSys N D} (hr : CReachable p c0 s) (j v : N) (a : Srv N D) (T : Nat) (hs : Settled a)
    {S : N → Bool} {todo : List N} (hv : v ∉ todo) (h : Run c0 a j T S (v :: todo) s) {d pt}
    (hm : CMsg.rvRes T v j true false d T pt ∈ s.msgs) :
    ∃ s', CalmSteps p c0 s s' ∧ Only j s s' ∧
      (Won c0 a T (s'.node j) ∨ ∃ S', (∀ x, S x = true ∨ x = v → S' x = true) ∧ Run c0 a j T S' todo s') := by
  have hrp := h.rpcs v List.mem_cons_self
  generalize hrr : (⟨v, T, (s.node j).ctx.version⟩ : Rpc N) = r at hrp
  obtain ⟨s1, h1, h2, h3, -, -, -⟩ := calm_one (p := p) (c0 := c0) (s := s) j (.voteRes j r true false d T pt true) rfl rfl
    (by
      have e : CMsg.rvRes r.term r.peer j true false d T pt ∈ s.msgs := by rw [← hrr]; exact hm
      simp [cpre, hrp, e])
  have hbb : (s.node j).bb.queue = [] := ((bf_reach hp hr j).fol (by rw [h.state]; rfl)).2
  refine ⟨s1, h1, h2, ?_⟩
  have h3 : s1.node j = (sVoteRes p c0 j (s.node j) r true false d T pt true).1 := h3
  unfold sVoteRes at h3
  rw [if_neg (by rw [← hrr]; simp), if_neg (by rw [h.state]; simp), if_neg (by rw [← hrr, h.term]; simp),
    if_neg (by rw [h.term]; omega), if_neg (by simp)] at h3
  have hrv : r.peer = v := by rw [← hrr]
  dsimp only at h3
  rw [hrv] at h3
  generalize hx : (if d = true then { (s.node j).ctx with disrupted := some (some v, pt) } else (s.node j).ctx) = x at h3
  have x1 : x.ballot = (s.node j).ctx.ballot := by rw [← hx]; split <;> rfl
  have x2 : x.reserved = [] := by rw [← hx]; split <;> exact h.reserved
  have x3 : x.version = (s.node j).ctx.version := by rw [← hx]; split <;> rfl
  simp only [if_true, true_and] at h3
  generalize hb : (if some v = (s.node j).lastLeader then (x.ballot.grant v).grant j else x.ballot.grant v) = b at h3
  have hS : ∃ S', (∀ y, S y = true ∨ y = v → S' y = true) ∧
      Ballot.Inv (confOf c0 a.log).peers (oldOf (confOf c0 a.log)) S' b := by
    have e := inv_grant (cf := confOf c0 a.log) h.ballot v
    rw [← x1] at e
    rw [← hb]
    split
    · refine ⟨_, ?_, inv_grant (cf := confOf c0 a.log) e j⟩
      rintro y (hy | hy) <;> simp [hy]
    · refine ⟨_, ?_, e⟩
      rintro y (hy | hy) <;> simp [hy]
  by_cases hg : b.granted = true
  · rw [if_pos hg] at h3
    left
    rw [h3]
    refine won_of hs ?_ h.state h.term hbb
    exact ⟨h.same.log, h.same.snap, h.same.psnap, h.same.dl, h.same.queue, h.same.applied⟩
  · right
    rw [if_neg hg] at h3
    obtain ⟨S', hS1, hS2⟩ := hS
    have hnode : SameL a (s1.node j) ∧ (s1.node j).state = .candidate ∧ (s1.node j).term = T ∧
        (s1.node j).ctx.ballot = b ∧ (s1.node j).ctx.reserved = [] ∧ (s1.node j).ctx.version = x.version ∧
        (s1.node j).rpcs = (s.node j).rpcs.erase r := by
      rw [h3]
      split
      · exact ⟨⟨h.same.log, h.same.snap, h.same.psnap, h.same.dl, h.same.queue, h.same.applied⟩, h.state, h.term, rfl,
          x2, rfl, rfl⟩
      · refine ⟨⟨h.same.log, h.same.snap, h.same.psnap, h.same.dl, h.same.queue, h.same.applied⟩, h.state, h.term, rfl,
          rfl, rfl, ?_⟩
        rw [x2]; rfl
    obtain ⟨n1, n2, n3, n4, n5, n6, n7⟩ := hnode
    refine ⟨S', hS1, n1, n2, n3, by rw [n4]; exact hS2, by rw [n4]; exact Bool.eq_false_iff.mpr hg, n5, ?_, ?_⟩
    · intro w hw
      rw [n6, n7, x3]
      have hwv : w ≠ v := fun e => hv (e ▸ hw)
      refine (List.mem_erase_of_ne ?_).mpr (h.rpcs w (List.mem_cons_of_mem _ hw))
      rw [← hrr]
      intro e
      injection e with e1
      exact hwv e1
    · intro w hw
      obtain ⟨dis, hd⟩ := h.msgs w (List.mem_cons_of_mem _ hw)
      exact ⟨dis, h2.msgs _ hd⟩

/-- A voter after the election: it has voted or is as it was. -/
def Ready (a : Srv N D) (T : Nat) (c c' : Srv N D) : Prop := c' = c ∨ Voted a T c c'

/-- All voters of `todo` vote, until the candidate is elected. -/
theorem votes_calm (hp : COk p) (j : N) (a : Srv N D) (T : Nat) (hs : Settled a) :
    ∀ (todo : List N) (S : N → Bool) (s : CSys N D), CReachable p c0 s → todo.Nodup → j ∉ todo →
    Run c0 a j T S todo s → (∀ v ∈ todo, Voter a T (s.node v)) →
    ∃ s', CalmSteps p c0 s s' ∧ Grow s s' ∧ (∀ i, i ≠ j → i ∉ todo → s'.node i = s.node i) ∧
      (∀ v ∈ todo, Ready a T (s.node v) (s'.node v)) ∧
      (Won c0 a T (s'.node j) ∨ ∃ S', (∀ x, S x = true ∨ x ∈ todo → S' x = true) ∧ Run c0 a j T S' [] s') := by
  intro todo
  induction todo with
  | nil =>
    intro S s hr hn hj h hv
    exact ⟨s, .refl, Grow.refl s, fun _ _ _ => rfl, fun v hv => absurd hv List.not_mem_nil,
      .inr ⟨S, fun x hx => hx.resolve_right List.not_mem_nil, h⟩⟩
  | cons v todo ih =>
    intro S s hr hn hj h hvs
    rw [List.nodup_cons] at hn
    rw [List.mem_cons, not_or] at hj
    obtain ⟨dis, hmsg⟩ := h.msgs v List.mem_cons_self
    obtain ⟨s1, g1, g2, g3, d, pt, g4⟩ := vote_calm hp hr j v a T (hvs v List.mem_cons_self) hmsg
    have hr1 := g1.reach hr
    have hjn : s1.node j = s.node j := g2.other j hj.1
    have h' : Run c0 a j T S (v :: todo) s1 := by
      refine ⟨?_, ?_, ?_, ?_, ?_, ?_, ?_, ?_⟩
      · rw [hjn]; exact h.same
      · rw [hjn]; exact h.state
      · rw [hjn]; exact h.term
      · rw [hjn]; exact h.ballot
      · rw [hjn]; exact h.ng
      · rw [hjn]; exact h.reserved
      · rw [hjn]; exact h.rpcs
      · intro w hw
        obtain ⟨dis, hd⟩ := h.msgs w hw
        exact ⟨dis, g2.msgs _ hd⟩
    obtain ⟨s2, k1, k2, k3⟩ := count_calm hp hr1 j v a T hs hn.1 h' g4
    have hv2 : s2.node v = s1.node v := k2.other v (fun e => hj.1 e.symm)
    rcases k3 with k3 | ⟨S', hS, k3⟩
    · refine ⟨s2, g1.trans k1, g2.grow.trans k2.grow, fun i hi hi' => ?_, fun w hw => ?_, .inl k3⟩
      · rw [List.mem_cons, not_or] at hi'
        rw [k2.other i hi, g2.other i hi'.1]
      · by_cases hwv : w = v
        · subst hwv
          right; rw [hv2]; exact g3
        · left
          rcases List.mem_cons.mp hw with e | hw
          · exact absurd e hwv
          · rw [k2.other w (fun e => hj.2 (e ▸ hw)), g2.other w hwv]
    · obtain ⟨s3, m1, m2, m3, m4, m5⟩ := ih S' s2 (k1.reach hr1) hn.2 hj.2 k3 (fun w hw => by
        rw [k2.other w (fun e => hj.2 (e ▸ hw)), g2.other w (fun e => hn.1 (e ▸ hw))]
        exact hvs w (List.mem_cons_of_mem _ hw))
      refine ⟨s3, (g1.trans k1).trans m1, (g2.grow.trans k2.grow).trans m2, fun i hi hi' => ?_, fun w hw => ?_, ?_⟩
      · rw [List.mem_cons, not_or] at hi'
        rw [m3 i hi hi'.2, k2.other i hi, g2.other i hi'.1]
      · by_cases hwv : w = v
        · subst hwv
          right
          rw [m3 w (fun e => hj.1 e.symm) hn.1, hv2]; exact g3
        · rcases List.mem_cons.mp hw with e | hw
          · exact absurd e hwv
          · have := m4 w hw
            rw [k2.other w (fun e => hj.2 (e ▸ hw)), g2.other w hwv] at this
            exact this
      · rcases m5 with m5 | ⟨S'', hS', m5⟩
        · exact .inl m5
        · refine .inr ⟨S'', fun x hx => hS' x ?_, m5⟩
          rcases hx with hx | hx
          · exact .inl (hS x (.inl hx))
          · rcases List.mem_cons.mp hx with hx | hx
            · exact .inl (hS x (.inr hx))
            · exact .inr hx

theorem stepDown_leads (c : Srv N D) : SameL c (sStepDown c c.term true) ∧ (sStepDown c c.term true).term = c.term ∧
    (sStepDown c c.term true).state = .follower := by
  refine ⟨by constructor <;> rfl, ?_, rfl⟩
  simp [sStepDown]

/-- **A node is elected**: it is a member of its own configuration, and a quorum of that configuration has logs that
are not ahead of its own. -/
theorem win_calm (hp : COk p) {s : CSys N D} (hr : CReachable p c0 s) (j : N) (Q : List N) (T : Nat)
    (hj : j ∈ (confOf c0 (s.node j).log).peers ∨ j ∈ (confOf c0 (s.node j).log).old)
    (hset : Settled (s.node j)) (hjT : (s.node j).term < T)
    (hnd : Q.Nodup) (hQj : j ∉ Q) (hQm : ∀ v ∈ Q, v ∈ members (confOf c0 (s.node j).log))
    (hQ : (confOf c0 (s.node j).log).Quorum (fun x => decide (x = j ∨ x ∈ Q)))
    (hV : ∀ v ∈ Q, Voter (s.node j) T (s.node v)) :
    ∃ s', CalmSteps p c0 s s' ∧ Grow s s' ∧ (∀ i, i ≠ j → i ∉ Q → s'.node i = s.node i) ∧
      (∀ v ∈ Q, Ready (s.node j) T (s.node v) (s'.node v)) ∧ Won c0 (s.node j) T (s'.node j) := by
  -- not the leader
  have h0 : ∃ s1, CalmSteps p c0 s s1 ∧ Only j s s1 ∧ SameL (s.node j) (s1.node j) ∧
      (s1.node j).term = (s.node j).term ∧ (s1.node j).state.leads = false := by
    by_cases hl : (s.node j).state.leads = false
    · exact ⟨s, .refl, Only.refl j s, SameL.refl _, rfl, hl⟩
    · obtain ⟨s1, g1, g2, g3, -, -, -⟩ := calm_one (p := p) (c0 := c0) (s := s) j (.stepDown j (s.node j).term true) rfl
        (by simp [calm]) (by simp [cpre])
      have g3 : s1.node j = sStepDown (s.node j) (s.node j).term true := g3
      obtain ⟨e1, e2, e3⟩ := stepDown_leads (s.node j)
      exact ⟨s1, g1, g2, by rw [g3]; exact e1, by rw [g3]; exact e2, by rw [g3, e3]; rfl⟩
  obtain ⟨s1, a1, a2, a3, a4, a5⟩ := h0
  have hr1 := a1.reach hr
  obtain ⟨s2, b1, b2, b3⟩ := elect_calm hp j (T - (s.node j).term - 1) s1 hr1
    ⟨a3.queue.trans hset.queue, a3.dl.trans hset.dl⟩ a5 (by rw [a3.log]; exact hj)
  have hr2 := b1.reach hr1
  have b3' : Cnd c0 (s.node j) T (s2.node j) := by
    have e : (s1.node j).term + (T - (s.node j).term - 1 + 1) = T := by omega
    rw [e] at b3
    exact
      { same := a3.trans b3.same, state := b3.state, term := b3.term
        frame := by have := b3.frame; rw [a3.log] at this; exact this
        ballot := by have := b3.ballot; rw [a3.log] at this; exact this
        reserved := b3.reserved }
  obtain ⟨s3, d1, d2, d3⟩ := electB_calm hp hr2 j (s.node j) T hset b3'
  have hr3 := d1.reach hr2
  have hoth : ∀ i, i ≠ j → s3.node i = s.node i := fun i hi => by
    rw [d2.other i hi, b2.other i hi, a2.other i hi]
  have hgr : Grow s s3 := (a2.grow.trans b2.grow).trans d2.grow
  rcases d3 with d3 | d3
  · exact ⟨s3, (a1.trans b1).trans d1, hgr, fun i hi _ => hoth i hi,
      fun v hv => .inl (hoth v (fun e => hQj (e ▸ hv))), d3⟩
  · have d4 : Run c0 (s.node j) j T (fun x => x == j) Q s3 :=
      { d3 with
        rpcs := fun v hv => d3.rpcs v (List.mem_filter.mpr ⟨hQm v hv, by
          simpa using fun e : v = j => hQj (e ▸ hv)⟩)
        msgs := fun v hv => d3.msgs v (List.mem_filter.mpr ⟨hQm v hv, by
          simpa using fun e : v = j => hQj (e ▸ hv)⟩) }
    obtain ⟨s4, e1, e2, e3, e4, e5⟩ := votes_calm hp j (s.node j) T hset Q _ s3 hr3 hnd hQj d4 (fun v hv => by
      rw [hoth v (fun e => hQj (e ▸ hv))]; exact hV v hv)
    refine ⟨s4, ((a1.trans b1).trans d1).trans e1, hgr.trans e2, fun i hi hi' => by rw [e3 i hi hi', hoth i hi],
      fun v hv => ?_, ?_⟩
    · have := e4 v hv
      rw [hoth v (fun e => hQj (e ▸ hv))] at this
      exact this
    · rcases e5 with e5 | ⟨S', hS, e5⟩
      · exact e5
      · exfalso
        have hq : IsQuorum (confOf c0 (s.node j).log).peers (oldOf (confOf c0 (s.node j).log)) S' := by
          refine BallotBox.IsQuorum.mono (quorum_is hQ) (fun x hx => hS x ?_)
          simpa using hx
        rw [← Ballot.inv_granted_iff e5.ballot, e5.ng] at hq
        cases hq

end Braft.Cl
