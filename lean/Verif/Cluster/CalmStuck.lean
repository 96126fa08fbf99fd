import Verif.Cluster.Calm
import Verif.Cluster.Traces
/-
A group of two whose leader removes itself and restarts when the removal is on its own disk and nowhere else. It may not
stand for election, because it is not in the last configuration of its log (node.cpp:1626-1630, 1685-1689); the other
one needs its vote, and does not get it, because its log is shorter (node.cpp:2271-2280). An invariant shows that nobody
is ever elected again.
-/
set_option linter.unusedVariables false
set_option linter.unusedSimpArgs false
set_option linter.unusedSectionVars false

namespace Braft.Cl.Stuck
open Braft.Raft Braft.Cl.Traces

def c2 : Conf Nat := { peers := [1, 2] }
def cNew : Conf Nat := { peers := [2] }

/-- 1 is elected by 1 and 2 in term 2 and its first entry is committed. Then it appends the configuration without itself,
writes it to disk, and restarts. -/
def stuckTrace : List A :=
  [.elect 1, .electB 1 ⟨2, (0, 0), 0⟩ true true, .voteReq 2 2 1 (0, 0) none,
   .voteReqB 2 ⟨2, 1, (0, 0), 1, (0, 0)⟩ true true true,
   .voteRes 1 ⟨2, 2, 1⟩ true false false 2 1 true,
   .replSend 1 2 0, .replRead 1 (.send 2 2 0 0 0) 1,
   .append 2 2 1 0 0 [ce 2 c2] 0 true false, .disk 2, .disk 2, .disk 1, .disk 1,
   .replRes 1 2 1 1 1, .replAck 1 (.ack 2 2 1 1),
   .changeConf 1 cNew, .disk 1, .disk 1, .crash 1]

/-- The logs of the nodes from then on. -/
def Lg (i : Nat) : Log Nat Nat :=
  if i = 1 then [ce 2 c2, ce 2 cNew] else if i = 2 then [ce 2 c2] else []

/-- The ballot of a candidate: nobody, or only itself, has granted its vote. -/
def B0 : Ballot Nat := Ballot.init [1, 2] none
def B1 : Ballot Nat := B0.grant 2

def BOk (b : Ballot Nat) : Prop := b = B0 ∨ b = B1

/-- A claim that 1 does not accept. -/
def low (x : Nat × Nat) : Prop := idLe (2, 2) x = false

instance (x : Nat × Nat) : Decidable (low x) := inferInstanceAs (Decidable (_ = _))

structure W (i : Nat) (c : Srv Nat Nat) : Prop where
  nl : c.state.leads = false
  dl : c.dl = none
  snap : c.snap = []
  psnap : c.psnap = []
  sm : c.sm = []
  applied : c.applied = 0
  lc : c.bb.lastCommitted = 0
  log : c.log = Lg i
  disk : c.disk = Lg i
  queue : ∀ j ∈ c.queue, ∃ t u n l, j = .follower t u n 0 l
  vote : i ≠ 2 → c.vote ≠ some 2 ∧ c.pvote ≠ some 2
  calm : i = 2 ∨ (c.elects = [] ∧ c.timers = [] ∧ c.state = .follower)
  claims : ∀ f ∈ c.elects, low f.claim
  lid : low c.ctx.lastId
  rpcs : ∀ r ∈ c.rpcs, r.peer = 1
  reserved : ∀ x ∈ c.ctx.reserved, x = 1
  ballot : BOk c.ctx.ballot ∨ (c.elects = [] ∧ c.timers = [] ∧ c.state = .follower)
  vcalls : ∀ f ∈ c.vcalls, f.cand = 2 → i = 1 ∧ idLe f.lastId f.claim = false
  repl : c.repl = []

def MOk : CMsg Nat Nat → Prop
  | .rvReq _ cand to claim _ => cand = 2 → to = 1 ∧ low claim
  | .rvRes _ _ cand granted _ _ _ _ => cand = 2 → granted = false
  | .aeReq _ _ to prev pt es cm => to = 2 ∧ prev = 0 ∧ pt = 0 ∧ es = [ce 2 c2] ∧ cm = 0
  | .aeRes _ _ _ _ _ _ _ => True
  | .isReq _ _ _ _ => False

/-- The result of a handler. -/
structure WR (i : Nat) (r : Res Nat Nat) : Prop where
  node : W i r.1
  msgs : ∀ m ∈ r.2.1, MOk m
  ev : ∀ e ∈ r.2.2, ∀ j t, e ≠ .lead j t

variable {p : CParams} {i : Nat} {c : Srv Nat Nat}

theorem conf_Lg : confOf c2 (Lg i) = if i = 1 then cNew else c2 := by
  unfold Lg
  split
  · decide
  · split <;> decide

theorem not_member (h : i ≠ 2) : i ∉ (confOf c2 (Lg i)).peers ∧ i ∉ (confOf c2 (Lg i)).old := by
  rw [conf_Lg]
  split
  · rename_i e; subst e; decide
  · rename_i e
    simp [c2, h, e]

theorem drain_followers (l : Log Nat Nat) : ∀ (q : List (Job Nat Nat)),
    (∀ j ∈ q, ∃ t u n l, j = .follower t u n 0 l) → drainJobs l q = l := by
  intro q
  induction q with
  | nil => intro _; rfl
  | cons j q ih =>
    intro h
    obtain ⟨t, u, n, l', rfl⟩ := h j List.mem_cons_self
    exact ih (fun x hx => h x (List.mem_cons_of_mem _ hx))

theorem W.ask (h : W i c) : askId c = lastId (Lg i) := by
  unfold askId
  split
  · rename_i e
    rw [h.snap, h.log] at e
    rw [h.snap, List.length_eq_zero_iff.mp e]
  · rw [drain_followers _ _ h.queue, h.disk]

theorem low0 : low (0, 0) := by decide
theorem low_Lg (h : i ≠ 1) : low (lastId (Lg i)) := by
  unfold Lg
  rw [if_neg h]
  split <;> decide

theorem W.restart (h : W i c) : W i (restartSrv c) := by
  have h1 : snapMerge c.psnap c.disk = Lg i := by
    rw [h.psnap, h.disk]; unfold snapMerge; rw [if_pos (by rfl)]
  unfold restartSrv
  rw [h1, h.psnap]
  constructor <;> dsimp only <;> first | rfl | exact h.disk | (intro x hx; exact absurd hx List.not_mem_nil) | skip
  case vote =>
    intro hi
    constructor <;> split <;> first | exact (h.vote hi).2 | simp
  case calm => exact .inr ⟨rfl, rfl, rfl⟩
  case ballot => exact .inr ⟨rfl, rfl, rfl⟩

theorem W.stepDown (h : W i c) (t : Nat) (ok : Bool) : W i (sStepDown c t ok) := by
  unfold sStepDown
  rw [h.nl]
  constructor <;> dsimp only
  case nl => rfl
  case dl => exact h.dl
  case snap => exact h.snap
  case psnap => exact h.psnap
  case sm => exact h.sm
  case applied => exact h.applied
  case lc => exact h.lc
  case log => exact h.log
  case disk => exact h.disk
  case queue => exact h.queue
  case vote =>
    intro hi
    constructor <;> split <;> first | exact (h.vote hi).1 | exact (h.vote hi).2 | simp
  case calm => rcases h.calm with h1 | h1
               · exact .inl h1
               · exact .inr ⟨h1.1, h1.2.1, rfl⟩
  case claims => exact h.claims
  case lid =>
    split
    · exact low0
    · exact h.lid
  case rpcs => exact h.rpcs
  case reserved =>
    split
    · intro x hx; exact absurd hx List.not_mem_nil
    · exact h.reserved
  case ballot =>
    rcases h.ballot with h1 | h1
    · left; split <;> exact h1
    · exact .inr ⟨h1.1, h1.2.1, rfl⟩
  case vcalls => exact h.vcalls
  case repl => exact h.repl

theorem W.electA (h : W i c) (st : Bool) : W i (sElectA c2 i c st) := by
  unfold sElectA
  rw [h.log]
  by_cases hi : i = 2
  · subst hi
    split
    · exact h
    · constructor <;> dsimp only
      case nl => rfl
      case dl => exact h.dl
      case snap => exact h.snap
      case psnap => exact h.psnap
      case sm => exact h.sm
      case applied => exact h.applied
      case lc => exact h.lc
      case disk => exact h.disk
      case queue => exact h.queue
      case vote => exact fun e => absurd rfl e
      case calm => exact .inl rfl
      case claims =>
        intro f hf
        rcases List.mem_cons.mp hf with rfl | hf
        · rw [h.ask]; exact low_Lg (by decide)
        · exact h.claims f hf
      case lid => exact low0
      case rpcs => exact h.rpcs
      case reserved => intro x hx; exact absurd hx List.not_mem_nil
      case ballot => exact .inl (.inl (by rfl))
      case vcalls => exact h.vcalls
      case repl => exact h.repl
  · rw [if_pos (not_member hi)]; exact h


theorem BOk.grant {b : Ballot Nat} (h : BOk b) : BOk (b.grant 2) := by
  rcases h with rfl | rfl
  · exact .inr rfl
  · exact .inr (by decide)

theorem BOk.granted {b : Ballot Nat} (h : BOk b) : b.granted = false := by
  rcases h with rfl | rfl <;> decide

theorem W.grantSelf (h : W i c) (hi : i = 2) (hb : BOk c.ctx.ballot) (free : Bool) : WR i (sGrantSelf p c2 i c free) := by
  subst hi
  unfold sGrantSelf
  split
  · dsimp only
    rw [hb.grant.granted]
    exact ⟨{ h with ballot := .inl hb.grant }, by simp, by simp⟩
  · exact ⟨{ h with calm := .inl rfl, ballot := .inl hb }, by simp, by simp⟩

theorem W.request (h : W 2 c) (ps : List Nat) (hps : ∀ x ∈ ps, x = 1 ∨ x = 2) :
    W 2 (sRequestPeers 2 c ps).1 ∧ ∀ m ∈ (sRequestPeers 2 c ps).2, MOk m := by
  have hq : ∀ x ∈ ps.filter (fun x => decide (x ≠ 2)), x = 1 := by
    intro x hx
    obtain ⟨h1, h2⟩ := List.mem_filter.mp hx
    rcases hps x h1 with h3 | h3
    · exact h3
    · exact absurd h3 (of_decide_eq_true h2)
  unfold sRequestPeers
  dsimp only
  refine ⟨{ h with rpcs := ?_ }, ?_⟩
  · intro r hr
    rcases List.mem_append.mp hr with hr | hr
    · obtain ⟨x, hx, rfl⟩ := List.mem_map.mp hr
      exact hq x hx
    · exact h.rpcs r hr
  · intro m hm
    obtain ⟨x, hx, rfl⟩ := List.mem_map.mp hm
    exact fun _ => ⟨hq x hx, h.lid⟩

theorem members_Lg : ∀ x ∈ members (confOf c2 (Lg 2)), x = 1 ∨ x = 2 := by
  rw [conf_Lg, if_neg (by decide)]
  decide

theorem W.electAsk (h : W 2 c) (f : EFrame) (hf : f ∈ c.elects) :
    W 2 (sElectAsk c2 2 c f).1 ∧ (∀ m ∈ (sElectAsk c2 2 c f).2, MOk m) ∧
    (sElectAsk c2 2 c f).1.ctx.ballot = c.ctx.ballot := by
  unfold sElectAsk
  rw [h.log]
  have h1 : W 2 { c with elects := c.elects.erase f, ctx := { c.ctx with lastId := f.claim }, log := Lg 2 } :=
    { h with
      log := rfl
      calm := .inl rfl
      claims := fun g hg => h.claims g (List.mem_of_mem_erase hg)
      lid := h.claims f hf
      ballot := by
        rcases h.ballot with hb | hb
        · exact .inl hb
        · rw [hb.1] at hf; cases hf }
  have h2 := h1.request (members (confOf c2 (Lg 2))) members_Lg
  have e : c.log = Lg 2 := h.log
  cases c
  dsimp only at e
  subst e
  exact ⟨h2.1, h2.2, rfl⟩

theorem W.electB (h : W i c) (f : EFrame) (hf : f ∈ c.elects) (ok free : Bool) : WR i (sElectB p c2 i c f ok free) := by
  have hi : i = 2 := by
    rcases h.calm with e | e
    · exact e
    · rw [e.1] at hf; cases hf
  subst hi
  have hb : BOk c.ctx.ballot := by
    rcases h.ballot with e | e
    · exact e
    · rw [e.1] at hf; cases hf
  unfold sElectB
  split
  · exact ⟨{ h with calm := .inl rfl, claims := fun g hg => h.claims g (List.mem_of_mem_erase hg), ballot := .inl hb },
      by simp, by simp⟩
  · have h1 := h.electAsk f hf
    dsimp only
    generalize sElectAsk c2 2 c f = r at h1
    rw [← h1.2.2] at hb
    split
    · have h2 : WR 2 (sGrantSelf p c2 2 { r.1 with pterm := r.1.term, pvote := some 2 } free) :=
        W.grantSelf (c := { r.1 with pterm := r.1.term, pvote := some 2 }) { h1.1 with vote := fun e => absurd rfl e } rfl hb free
      refine ⟨h2.node, fun m hm => ?_, h2.ev⟩
      rcases List.mem_append.mp hm with hm | hm
      · exact h2.msgs m hm
      · exact h1.2.1 m hm
    · exact ⟨{ h1.1 with vote := fun e => absurd rfl e }, h1.2.1, by simp⟩

theorem W.voteRes (h : W i c) (r : Rpc Nat) (hr : r ∈ c.rpcs) (g rj d : Bool) (rt pt : Nat) (ok : Bool)
    (hm : MOk (.rvRes r.term r.peer i g rj d rt pt)) : WR i (sVoteRes p c2 i c r g rj d rt pt ok) := by
  unfold sVoteRes
  have h0 : W i { c with rpcs := c.rpcs.erase r } := { h with rpcs := fun x hx => h.rpcs x (List.mem_of_mem_erase hx) }
  split
  · exact ⟨h0, by simp, by simp⟩
  split
  · exact ⟨h0, by simp, by simp⟩
  rename_i hst
  have hi : i = 2 := by
    rcases h.calm with e | e
    · exact e
    · rw [e.2.2] at hst; exact absurd (by decide) hst
  subst hi
  obtain rfl : g = false := hm rfl
  have hb : BOk c.ctx.ballot := by
    rcases h.ballot with e | e
    · exact e
    · rw [e.2.2] at hst; exact absurd (by decide) hst
  split
  · exact ⟨h0, by simp, by simp⟩
  split
  · exact ⟨h0.stepDown _ _, by simp, by simp⟩
  split
  · exact ⟨h0, by simp, by simp⟩
  dsimp only
  simp only [Bool.false_eq_true, if_false, false_and]
  have hp : ∀ x ∈ r.peer :: c.ctx.reserved, x = 1 := by
    intro x hx
    rcases List.mem_cons.mp hx with rfl | hx
    · exact h.rpcs r hr
    · exact h.reserved x hx
  cases d with
  | true =>
    simp only [if_true, reduceCtorEq, if_false]
    have h2 := W.request (c := { c with
        rpcs := c.rpcs.erase r
        ctx := { c.ctx with disrupted := some (some r.peer, pt), reserved := [] } })
      { h0 with reserved := fun x hx => absurd hx List.not_mem_nil } (r.peer :: c.ctx.reserved) (fun x hx => .inl (hp x hx))
    exact ⟨h2.1, h2.2, by simp⟩
  | false =>
    simp only [Bool.false_eq_true, if_false]
    split
    · exact ⟨{ h0 with reserved := hp }, by simp, by simp⟩
    · have h2 := W.request (c := { c with rpcs := c.rpcs.erase r, ctx := { c.ctx with reserved := [] } })
        { h0 with reserved := fun x hx => absurd hx List.not_mem_nil } (r.peer :: c.ctx.reserved) (fun x hx => .inl (hp x hx))
      exact ⟨h2.1, h2.2, by simp⟩

theorem W.voteReqA (h : W i c) (t : Nat) (cand : Nat) (claim : Nat × Nat) (dis : Option (Nat × Nat))
    (hm : MOk (.rvReq t cand i claim dis)) : WR i (sVoteReqA i c t cand claim) := by
  unfold sVoteReqA
  split
  · exact ⟨h, by simp [MOk], by simp⟩
  · refine ⟨{ h with vcalls := ?_ }, by simp, by simp⟩
    intro f hf hc
    rcases List.mem_cons.mp hf with rfl | hf
    · obtain ⟨rfl, h1⟩ := hm hc
      refine ⟨rfl, ?_⟩
      dsimp only
      rw [h.ask]
      exact h1
    · exact h.vcalls f hf hc

theorem W.voteCast (h : W i c) (f : VFrame Nat) (hf : f.cand = 2 → i = 1 ∧ idLe f.lastId f.claim = false) (ok g : Bool) :
    W i (sVoteCast c f ok g) := by
  unfold sVoteCast
  have h1 : W i (if c.term < f.reqTerm then sStepDown c f.reqTerm ok else c) := by
    split
    · exact h.stepDown _ ok
    · exact h
  dsimp only
  generalize (if c.term < f.reqTerm then sStepDown c f.reqTerm ok else c) = c1 at h1 ⊢
  split
  · rename_i hc
    have hne : f.cand ≠ 2 := by
      intro e
      rw [(hf e).2] at hc
      exact absurd hc.1 (by decide)
    have h2 := h1.stepDown f.reqTerm ok
    generalize sStepDown c1 f.reqTerm ok = c3 at h2
    split
    · exact { h2 with vote := fun _ => ⟨by simpa using hne, by simpa using hne⟩ }
    · exact { h2 with vote := fun hi => ⟨by simp, (h2.vote hi).2⟩ }
  · exact h1

theorem W.answer (h : W i c) (f : VFrame Nat) (hf : f.cand = 2 → i = 1 ∧ idLe f.lastId f.claim = false) (a b : Bool) :
    MOk (voteAnswer i c f a b) := by
  intro hc
  obtain ⟨rfl, -⟩ := hf hc
  rw [hc, decide_eq_false_iff_not]
  exact fun e => (h.vote (by decide)).1 e.2

theorem W.voteReqB (h : W i c) (f : VFrame Nat) (hf : f ∈ c.vcalls) (free ok g : Bool) :
    WR i (sVoteReqB i c f free ok g) := by
  have hf' := h.vcalls f hf
  unfold sVoteReqB
  have h0 : W i { c with vcalls := c.vcalls.erase f } :=
    { h with vcalls := fun x hx => h.vcalls x (List.mem_of_mem_erase hx) }
  dsimp only
  split
  · refine ⟨h0, ?_, by simp⟩
    intro m hm; rw [List.mem_singleton] at hm; subst hm; exact h0.answer f hf' _ _
  split
  · refine ⟨h0, ?_, by simp⟩
    intro m hm; rw [List.mem_singleton] at hm; subst hm; exact h0.answer f hf' _ _
  · refine ⟨h0.voteCast f hf' ok g, ?_, by simp⟩
    intro m hm; rw [List.mem_singleton] at hm; subst hm; exact (h0.voteCast f hf' ok g).answer f hf' _ _

theorem W.check (h : W i c) (t srv : Nat) (ok : Bool) : W i (sCheckStepDown i c t srv ok).1 ∧
    ∀ e ∈ (sCheckStepDown i c t srv ok).2, ∀ j t, e ≠ .lead j t := by
  unfold sCheckStepDown
  have h1 : W i (if c.term < t ∨ c.state ≠ .follower ∨ c.leaderId = none then sStepDown c t ok else c) := by
    split
    · exact h.stepDown t ok
    · exact h
  dsimp only
  generalize (if c.term < t ∨ c.state ≠ .follower ∨ c.leaderId = none then sStepDown c t ok else c) = c1 at h1 ⊢
  split
  · exact ⟨{ h1 with }, by simp⟩
  · exact ⟨h1, by simp⟩

theorem setCommitted_zero (b : BallotBox Nat Unit) (h : b.lastCommitted = 0) :
    (b.setLastCommittedIndex 0).1.lastCommitted = 0 := by
  unfold BallotBox.setLastCommittedIndex
  rw [h]
  split
  · exact h
  · simpa using h

theorem W.append (h : W i c) (t srv : Nat) (prev pt : Nat) (es : List (Entry Nat Nat)) (cm : Nat) (ok : Bool)
    (hm : MOk (.aeReq t srv i prev pt es cm)) : WR i (sAppend i c t srv prev pt es cm ok false) := by
  obtain ⟨rfl, rfl, rfl, rfl, rfl⟩ := hm
  unfold sAppend
  split
  · exact ⟨h, by simp [MOk], by simp⟩
  have h1 := h.check t srv ok
  dsimp only
  generalize sCheckStepDown 2 c t srv ok = r at h1 ⊢
  obtain ⟨h1, he⟩ := h1
  split
  · exact ⟨h1.stepDown _ _, by simp [MOk], he⟩
  rw [h1.dl, h1.applied]
  have hj : resolveJobs r.1.log 0 [ce 2 c2] = [] := by rw [h1.log]; decide
  rw [hj]
  simp only [Option.isSome_none, Bool.false_eq_true, and_false, if_false]
  rw [if_neg (by simp [termAt]), if_neg (by simp), if_neg (by simp)]
  refine ⟨{ h1 with dl := rfl, applied := rfl, queue := ?_, log := h1.log }, by simp, he⟩
  intro j hj
  simp only [List.append_nil, List.mem_append, List.mem_singleton] at hj
  rcases hj with hj | rfl
  · exact h1.queue j hj
  · exact ⟨_, _, _, _, rfl⟩

theorem W.diskStep (h : W i c) : WR i (sDisk i c) := by
  unfold sDisk
  split
  · exact ⟨h, by simp, by simp⟩
  · rename_i j q hq
    obtain ⟨t, u, n, l, rfl⟩ := h.queue j (by rw [hq]; exact List.mem_cons_self)
    have h1 : W i { c with
        disk := c.disk, queue := q
        elects := c.elects.map (fun f => { f with rest := f.rest - 1 }) } :=
      { h with
        queue := fun x hx => h.queue x (by rw [hq]; exact List.mem_cons_of_mem _ hx)
        calm := by
          rcases h.calm with e | e
          · exact .inl e
          · exact .inr ⟨by simp [e.1], e.2⟩
        claims := by
          intro f hf
          obtain ⟨g, hg, rfl⟩ := List.mem_map.mp hf
          exact h.claims g hg
        ballot := by
          rcases h.ballot with e | e
          · exact .inl e
          · exact .inr ⟨by simp [e.1], e.2⟩ }
    dsimp only [applyJob]
    split
    · exact ⟨h1, by simp [MOk], by simp⟩
    · refine ⟨{ h1 with lc := ?_ }, by simp [MOk], by simp⟩
      rw [Nat.zero_min]
      exact setCommitted_zero _ h.lc

/-- The invariant. -/
structure WS (s : CSys Nat Nat) : Prop where
  node : ∀ i, W i (s.node i)
  msgs : ∀ m ∈ s.msgs, MOk m

theorem ws_eff {s : CSys Nat Nat} (h : WS s) (a : CAct Nat Nat) (hp : cpre p c2 s a = true) :
    WR a.at (ceff p c2 (s.node a.at) a) := by
  cases a with
  | elect i => exact ⟨(h.node i).electA _, by simp [ceff], by simp [ceff]⟩
  | timeoutNow i t st ok =>
    refine ⟨?_, by simp [ceff], by simp [ceff]⟩
    show W i (sTimeoutNow c2 i (s.node i) t st ok)
    unfold sTimeoutNow
    split
    · split
      · exact (h.node i).stepDown _ _
      · exact h.node i
    split
    · exact h.node i
    · exact (h.node i).electA _
  | electB i f ok free =>
    simp only [cpre, Bool.and_eq_true, decide_eq_true_eq] at hp
    exact (h.node i).electB f hp.1.1.1 ok free
  | electDie i f =>
    simp only [cpre, Bool.and_eq_true, decide_eq_true_eq] at hp
    refine ⟨(h.node i).restart, ?_, by simp [ceff]⟩
    have hi : i = 2 := by
      rcases (h.node i).calm with e | e
      · exact e
      · rw [e.1] at hp; exact absurd hp.1.1 List.not_mem_nil
    subst hi
    exact ((h.node 2).electAsk f hp.1.1).2.1
  | timer i v free =>
    simp only [cpre, Bool.and_eq_true, decide_eq_true_eq] at hp
    show WR i (sTimer p c2 i (s.node i) v free)
    have hi : i = 2 := by
      rcases (h.node i).calm with e | e
      · exact e
      · rw [e.2.1] at hp; exact absurd hp.1 List.not_mem_nil
    have hb : BOk (s.node i).ctx.ballot := by
      rcases (h.node i).ballot with e | e
      · exact e
      · rw [e.2.1] at hp; exact absurd hp.1 List.not_mem_nil
    have h0 : W i { s.node i with timers := (s.node i).timers.erase v } :=
      { h.node i with calm := .inl hi, ballot := .inl hb }
    unfold sTimer
    dsimp only
    split
    · exact ⟨h0, by simp, by simp⟩
    · exact W.grantSelf h0 hi hb free
  | voteRes i r g rj d rt pt ok =>
    simp only [cpre, Bool.and_eq_true, decide_eq_true_eq] at hp
    exact (h.node i).voteRes r hp.1 g rj d rt pt ok (h.msgs _ hp.2)
  | voteReq i t cand claim dis =>
    simp only [cpre, decide_eq_true_eq] at hp
    exact (h.node i).voteReqA t cand claim dis (h.msgs _ hp)
  | voteReqB i f free ok g =>
    simp only [cpre, Bool.and_eq_true, decide_eq_true_eq] at hp
    exact (h.node i).voteReqB f hp.1.1 free ok g
  | stepDown i t ok => exact ⟨(h.node i).stepDown t ok, by simp [ceff], by simp [ceff]⟩
  | transfer i =>
    simp only [cpre, decide_eq_true_eq] at hp
    have := (h.node i).nl
    rw [hp] at this; cases this
  | transferTimeout i =>
    simp only [cpre, decide_eq_true_eq] at hp
    have := (h.node i).nl
    rw [hp] at this; cases this
  | apply i ds =>
    simp only [cpre, Bool.and_eq_true, decide_eq_true_eq] at hp
    have := (h.node i).nl
    rw [hp.1] at this; cases this
  | changeConf i cf =>
    simp only [cpre, Bool.and_eq_true, decide_eq_true_eq] at hp
    have := (h.node i).nl
    rw [hp.1.1] at this; cases this
  | replSend i to prev =>
    simp only [cpre, Bool.and_eq_true, decide_eq_true_eq] at hp
    have := (h.node i).nl
    rw [hp.1.1] at this; cases this
  | replRead i f cnt =>
    simp only [cpre, Bool.and_eq_true, decide_eq_true_eq] at hp
    rw [(h.node i).repl] at hp
    exact absurd hp.1 List.not_mem_nil
  | replRes i who first upTo n =>
    simp only [cpre, Bool.and_eq_true, decide_eq_true_eq] at hp
    have := (h.node i).nl
    rw [hp.1.1] at this; cases this
  | replAck i f =>
    simp only [cpre, Bool.and_eq_true, decide_eq_true_eq] at hp
    rw [(h.node i).repl] at hp
    exact absurd hp.1 List.not_mem_nil
  | append i t srv prev pt es cm ok gone =>
    simp only [cpre, Bool.and_eq_true, decide_eq_true_eq] at hp
    have hm := h.msgs _ hp.1
    cases gone with
    | false => exact (h.node i).append t srv prev pt es cm ok hm
    | true =>
      rw [hm.2.1] at hp
      exact absurd hp.2 (by simp)
  | sendIS i to =>
    simp only [cpre, Bool.and_eq_true, decide_eq_true_eq] at hp
    have := (h.node i).nl
    rw [hp.1.1] at this; cases this
  | install i t srv K ok =>
    simp only [cpre, decide_eq_true_eq] at hp
    exact absurd (h.msgs _ hp) (by simp [MOk])
  | disk i => exact (h.node i).diskStep
  | fsm i =>
    simp only [cpre, decide_eq_true_eq] at hp
    rw [(h.node i).applied, (h.node i).lc] at hp
    exact absurd hp (by omega)
  | saveSnap i k =>
    simp only [cpre, Bool.and_eq_true, decide_eq_true_eq] at hp
    rw [(h.node i).applied] at hp
    exact absurd hp.1.2 (by omega)
  | copied i =>
    simp only [cpre, Bool.and_eq_true, decide_eq_true_eq] at hp
    exact absurd (h.node i).dl hp.1
  | loaded i =>
    simp only [cpre, decide_eq_true_eq] at hp
    rw [(h.node i).dl] at hp; cases hp
  | dlDrop i =>
    simp only [cpre, Bool.and_eq_true, decide_eq_true_eq] at hp
    exact absurd (h.node i).dl hp.1
  | crash i => exact ⟨(h.node i).restart, by simp [ceff], by simp [ceff]⟩

theorem ws_steps {s s' : CSys Nat Nat} (h : WS s) (hs : CSteps p c2 s s') :
    WS s' ∧ ∀ i t, Ev.lead i t ∈ s'.ev → Ev.lead i t ∈ s.ev := by
  induction hs with
  | refl => exact ⟨h, fun _ _ h => h⟩
  | @tail s1 s2 a _ hst ih =>
    obtain ⟨ih, ihe⟩ := ih
    unfold cstep at hst
    split at hst
    · rename_i hp
      have h1 := ws_eff ih a hp
      cases hst
      refine ⟨⟨fun i => ?_, fun m hm => ?_⟩, fun i t he => ?_⟩
      · by_cases hi : i = a.at
        · subst hi
          simp only [updF, if_true]; exact h1.node
        · simp only [updF, hi, if_false]; exact ih.node i
      · rcases List.mem_append.mp hm with hm | hm
        · exact h1.msgs m hm
        · exact ih.msgs m hm
      · rcases List.mem_append.mp he with he | he
        · exact absurd rfl (h1.ev _ he i t)
        · exact ihe i t he
    · cases hst

/-! ### The state after `stuckTrace` -/

theorem run_other {c0 : Conf Nat} (j : Nat) : ∀ (as : List (CAct Nat Nat)) {s s' : CSys Nat Nat},
    runC p c0 s as = some s' → (∀ a ∈ as, a.at ≠ j) → s'.node j = s.node j
  | [], s, s', h, _ => by
    have : s = s' := Option.some.inj h
    rw [this]
  | a :: as, s, s', h, ha => by
    unfold runC at h
    split at h
    · cases h
    · next s1 h1 =>
      rw [run_other j as h (fun x hx => ha x (List.mem_cons_of_mem _ hx))]
      unfold cstep at h1
      split at h1
      · cases h1
        simp [updF, (ha a List.mem_cons_self).symm]
      · cases h1

/-- `Norm` with the default flags. -/
def Dflt : CParams := ⟨Norm, false, true, false⟩

def sStuck : CSys Nat Nat := Traces.after Dflt c2 initC stuckTrace

theorem stuck_other (j : Nat) (h1 : j ≠ 1) (h2 : j ≠ 2) : sStuck.node j = freshSrv := by
  have hs : (runC Dflt c2 initC stuckTrace).isSome = true := by decide +kernel
  obtain ⟨s', hr⟩ := Option.isSome_iff_exists.mp hs
  have : sStuck = s' := by rw [sStuck, Traces.after, hr]; rfl
  rw [this, run_other j stuckTrace hr]
  · rfl
  · have hat : ∀ a ∈ stuckTrace.map CAct.at, a = 1 ∨ a = 2 := by decide
    intro a ha
    rcases hat a.at (List.mem_map_of_mem ha) with e | e <;> rw [e]
    · exact h1.symm
    · exact h2.symm

theorem ws_stuck : WS sStuck := by
  constructor
  · intro i
    by_cases h1 : i = 1
    · subst h1
      have hq : (sStuck.node 1).queue = [] := by decide +kernel
      have he : (sStuck.node 1).elects = [] := by decide +kernel
      have hr : (sStuck.node 1).rpcs = [] := by decide +kernel
      have hx : (sStuck.node 1).ctx.reserved = [] := by decide +kernel
      have hv : (sStuck.node 1).vcalls = [] := by decide +kernel
      have ht : (sStuck.node 1).timers = [] := by decide +kernel
      have hs : (sStuck.node 1).state = .follower := by decide +kernel
      constructor
      case queue => rw [hq]; intro j hj; cases hj
      case vote => intro _; decide +kernel
      case calm => exact .inr ⟨he, ht, hs⟩
      case claims => rw [he]; intro j hj; cases hj
      case lid => decide +kernel
      case rpcs => rw [hr]; intro j hj; cases hj
      case reserved => rw [hx]; intro j hj; cases hj
      case ballot => exact .inr ⟨he, ht, hs⟩
      case vcalls => rw [hv]; intro j hj; cases hj
      all_goals decide +kernel
    by_cases h2 : i = 2
    · subst h2
      have hq : (sStuck.node 2).queue = [] := by decide +kernel
      have he : (sStuck.node 2).elects = [] := by decide +kernel
      have hr : (sStuck.node 2).rpcs = [] := by decide +kernel
      have hx : (sStuck.node 2).ctx.reserved = [] := by decide +kernel
      have hv : (sStuck.node 2).vcalls = [] := by decide +kernel
      have ht : (sStuck.node 2).timers = [] := by decide +kernel
      have hs : (sStuck.node 2).state = .follower := by decide +kernel
      constructor
      case queue => rw [hq]; intro j hj; cases hj
      case vote => intro e; exact absurd rfl e
      case calm => exact .inl rfl
      case claims => rw [he]; intro j hj; cases hj
      case lid => decide +kernel
      case rpcs => rw [hr]; intro j hj; cases hj
      case reserved => rw [hx]; intro j hj; cases hj
      case ballot => exact .inr ⟨he, ht, hs⟩
      case vcalls => rw [hv]; intro j hj; cases hj
      all_goals decide +kernel
    rw [stuck_other i h1 h2]
    have hl : Lg i = [] := by unfold Lg; rw [if_neg h1, if_neg h2]
    constructor <;> first | rfl | exact hl.symm | (intro j hj; exact absurd hj List.not_mem_nil) | skip
    case vote => intro _; exact ⟨by simp [freshSrv], by simp [freshSrv]⟩
    case calm => exact .inr ⟨rfl, rfl, rfl⟩
    case ballot => exact .inr ⟨rfl, rfl, rfl⟩
  · have hm : sStuck.msgs = [.aeRes 2 1 2 true 2 1 1, .aeReq 2 1 2 0 0 [ce 2 c2] 0, .rvRes 2 2 1 true false false 2 1,
        .rvReq 2 1 2 (0, 0) none] := by decide +kernel
    rw [hm]
    intro m hm
    simp only [List.mem_cons, List.not_mem_nil, or_false] at hm
    rcases hm with rfl | rfl | rfl | rfl
    · trivial
    · exact ⟨rfl, rfl, rfl, rfl, rfl⟩
    · intro h; cases h
    · intro h; cases h

end Braft.Cl.Stuck
