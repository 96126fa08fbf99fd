import Verif.Cluster.LogNodeDisk
/-
In every reachable state of the joint model every server's list and its LogManager agree.
-/
set_option linter.unusedVariables false
set_option linter.unusedSimpArgs false
set_option linter.unusedSectionVars false

namespace Braft.Cl
open Braft.Raft
open Braft.MemLog (Ent Consec)
open Braft.LogMgr (Sto Id number)
variable {N D : Type} [DecidableEq N] [DecidableEq D] {p : CParams} {c0 : Conf N}

/-- Nothing that concerns the log has changed. -/
structure Same (c c' : Srv N D) : Prop where
  log : c'.log = c.log
  disk : c'.disk = c.disk
  queue : c'.queue = c.queue
  snap : c'.snap = c.snap
  applied : c'.applied = c.applied

theorem Same.rfl' (c : Srv N D) : Same c c := ⟨rfl, rfl, rfl, rfl, rfl⟩

theorem Same.trans {a b c : Srv N D} (h1 : Same a b) (h2 : Same b c) : Same a c :=
  ⟨h2.log.trans h1.log, h2.disk.trans h1.disk, h2.queue.trans h1.queue, h2.snap.trans h1.snap, h2.applied.trans h1.applied⟩

theorem stepDown_same (c : Srv N D) (t : Nat) (ok : Bool) : Same c (sStepDown c t ok) := ⟨rfl, rfl, rfl, rfl, rfl⟩

theorem checkStepDown_same (i : N) (c : Srv N D) (t : Nat) (srv : N) (ok : Bool) : Same c (sCheckStepDown i c t srv ok).1 := by
  unfold sCheckStepDown
  dsimp only
  constructor <;> (repeat' split) <;> rfl

theorem electA_same (i : N) (c : Srv N D) (st : Bool) : Same c (sElectA c0 i c st) := by
  unfold sElectA
  split
  · exact Same.rfl' c
  · exact ⟨rfl, rfl, rfl, rfl, rfl⟩

theorem timeoutNow_same (i : N) (c : Srv N D) (t : Nat) (st ok : Bool) : Same c (sTimeoutNow c0 i c t st ok) := by
  unfold sTimeoutNow
  split
  · split
    · exact stepDown_same ..
    · exact Same.rfl' c
  · split
    · exact Same.rfl' c
    · exact electA_same ..

theorem voteCast_same (c : Srv N D) (f : VFrame N) (ok g : Bool) : Same c (sVoteCast c f ok g) := by
  unfold sVoteCast
  dsimp only
  constructor <;> (repeat' split) <;> rfl

theorem voteReqB_same (i : N) (c : Srv N D) (f : VFrame N) (free ok g : Bool) : Same c (sVoteReqB i c f free ok g).1 := by
  unfold sVoteReqB
  dsimp only
  split
  · exact ⟨rfl, rfl, rfl, rfl, rfl⟩
  · split
    · exact ⟨rfl, rfl, rfl, rfl, rfl⟩
    · exact Same.trans (b := { c with vcalls := c.vcalls.erase f }) ⟨rfl, rfl, rfl, rfl, rfl⟩ (voteCast_same ..)

theorem install_same (i : N) (c : Srv N D) (t : Nat) (srv : N) (K : Log N D) (ok : Bool) : Same c (sInstall i c t srv K ok).1 := by
  have h := checkStepDown_same i c t srv ok
  unfold sInstall
  dsimp only
  split
  · exact Same.rfl' c
  · split
    · exact h.trans (stepDown_same ..)
    · split
      · exact h.trans ⟨rfl, rfl, rfl, rfl, rfl⟩
      · exact h

/-- What elections do to the log: nothing, or the process ends, or the node leads and appends its
configuration. -/
inductive Out (c0 : Conf N) (c : Srv N D) (r : Res N D) (ab : Bool) : Prop where
  | same (h : Same c r.1) (hl : led r = false) (ha : ab = false)
  | boot (c1 : Srv N D) (h : Same c c1) (hp : c1.psnap = c.psnap) (hr : r.1 = restartSrv c1) (ha : ab = true)
  | lead (c1 : Srv N D) (h : Same c c1)
      (hr : r.1 = sAppendOwn c1 (confOf c0 c.log) [⟨c.term, .conf (confOf c0 c.log)⟩]) (hl : led r = true) (ha : ab = false)

theorem becomeLeader_out (i : N) {c c1 : Srv N D} (h : Same c c1) (hp : c1.psnap = c.psnap) (ht : c1.term = c.term) :
    Out c0 c (sBecomeLeader p c0 i c1) (decide (c1.state ≠ .candidate) && p.checkAborts) := by
  unfold sBecomeLeader
  by_cases ha : c1.state ≠ .candidate ∧ p.checkAborts = true
  · rw [if_pos ha]
    exact .boot c1 h hp rfl (by simp [ha.1, ha.2])
  · rw [if_neg ha]
    have hf : (decide (c1.state ≠ .candidate) && p.checkAborts) = false := by
      cases hb : (decide (c1.state ≠ .candidate) && p.checkAborts) with
      | false => rfl
      | true =>
        rw [Bool.and_eq_true, decide_eq_true_eq] at hb
        exact absurd hb ha
    dsimp only
    refine .lead { c1 with ctx := c1.ctx.reset, state := .leader, leaderId := some i, lastLeader := none, bb := c1.bb.resetPendingIndex (c1.log.length + 1) } ⟨h.log, h.disk, h.queue, h.snap, h.applied⟩ ?_ rfl hf
    rw [← ht, ← h.log]

theorem grantSelf_out (i : N) {c c1 : Srv N D} (free : Bool) (h : Same c c1) (hp : c1.psnap = c.psnap) (ht : c1.term = c.term) :
    Out c0 c (sGrantSelf p c0 i c1 free)
      (free && (c1.ctx.ballot.grant i).granted && decide (c1.state ≠ .candidate) && p.checkAborts) := by
  unfold sGrantSelf
  cases free with
  | false => exact .same ⟨h.log, h.disk, h.queue, h.snap, h.applied⟩ rfl rfl
  | true =>
    simp only [if_true, Bool.true_and]
    by_cases hg : (c1.ctx.ballot.grant i).granted = true
    · rw [if_pos hg, hg, Bool.true_and]
      have := becomeLeader_out (p := p) (c0 := c0) i (c := c) (c1 := { c1 with ctx := { c1.ctx with ballot := c1.ctx.ballot.grant i } })
        ⟨h.log, h.disk, h.queue, h.snap, h.applied⟩ hp ht
      exact this
    · rw [if_neg hg]
      refine .same ⟨h.log, h.disk, h.queue, h.snap, h.applied⟩ rfl ?_
      rw [Bool.not_eq_true] at hg
      rw [hg]
      rfl

theorem led_congr {r r' : Res N D} (h : r.2.2 = r'.2.2) : led r = led r' := by unfold led; rw [h]

theorem Out.congr {c : Srv N D} {r r' : Res N D} {ab ab' : Bool} (h : Out c0 c r ab) (h1 : r'.1 = r.1) (h2 : r'.2.2 = r.2.2)
    (h3 : ab' = ab) : Out c0 c r' ab' := by
  cases h with
  | same a b d => exact .same (by rw [h1]; exact a) (by rw [led_congr h2]; exact b) (h3.trans d)
  | boot c1 a b d e => exact .boot c1 a b (h1.trans d) (h3.trans e)
  | lead c1 a b d e => exact .lead c1 a (h1.trans b) (by rw [led_congr h2]; exact d) (h3.trans e)

theorem electB_out (i : N) (c : Srv N D) (f : EFrame) (ok free : Bool) :
    Out c0 c (sElectB p c0 i c f ok free) (aborts p i c (.electB i f ok free)) := by
  unfold sElectB aborts
  by_cases hf : f.term ≠ c.term
  · rw [if_pos hf]
    exact .same ⟨rfl, rfl, rfl, rfl, rfl⟩ rfl (by simp [hf])
  · rw [if_neg hf]
    dsimp only
    cases ok with
    | false =>
      simp only [Bool.false_eq_true, if_false, Bool.and_false, Bool.false_and]
      exact .same ⟨rfl, rfl, rfl, rfl, rfl⟩ rfl rfl
    | true =>
      simp only [if_true]
      have := grantSelf_out (p := p) (c0 := c0) i (c := c)
        (c1 := { (sElectAsk c0 i c f).1 with pterm := (sElectAsk c0 i c f).1.term, pvote := some i }) free
        ⟨rfl, rfl, rfl, rfl, rfl⟩ rfl rfl
      refine this.congr rfl rfl ?_
      have hft : f.term = c.term := by simpa using hf
      rw [decide_eq_true hft, Bool.true_and, Bool.true_and]
      rfl

theorem timer_out (i : N) (c : Srv N D) (v : Nat) (free : Bool) :
    Out c0 c (sTimer p c0 i c v free) (aborts p i c (.timer i v free)) := by
  unfold sTimer aborts
  dsimp only
  by_cases hv : c.ctx.version ≠ v
  · rw [if_pos hv]
    exact .same ⟨rfl, rfl, rfl, rfl, rfl⟩ rfl (by simp [hv])
  · rw [if_neg hv]
    have := grantSelf_out (p := p) (c0 := c0) i (c := c) (c1 := { c with timers := c.timers.erase v }) free
      ⟨rfl, rfl, rfl, rfl, rfl⟩ rfl rfl
    refine this.congr rfl rfl ?_
    have hft : c.ctx.version = v := by simpa using hv
    rw [decide_eq_true hft, Bool.true_and]

theorem voteRes_out (i : N) (c : Srv N D) (r : Rpc N) (g rj di : Bool) (rt pt : Nat) (ok : Bool) :
    Out c0 c (sVoteRes p c0 i c r g rj di rt pt ok) false := by
  unfold sVoteRes
  by_cases h1 : r.version ≠ c.ctx.version
  · rw [if_pos h1]; exact .same ⟨rfl, rfl, rfl, rfl, rfl⟩ rfl rfl
  rw [if_neg h1]
  by_cases h2 : c.state ≠ .candidate
  · rw [if_pos h2]; exact .same ⟨rfl, rfl, rfl, rfl, rfl⟩ rfl rfl
  rw [if_neg h2]
  by_cases h3 : r.term ≠ c.term
  · rw [if_pos h3]; exact .same ⟨rfl, rfl, rfl, rfl, rfl⟩ rfl rfl
  rw [if_neg h3]
  by_cases h4 : c.term < rt
  · rw [if_pos h4]; exact .same ⟨rfl, rfl, rfl, rfl, rfl⟩ rfl rfl
  rw [if_neg h4]
  by_cases h5 : ¬ g = true ∧ ¬ rj = true
  · rw [if_pos h5]; exact .same ⟨rfl, rfl, rfl, rfl, rfl⟩ rfl rfl
  rw [if_neg h5]
  have hst : c.state = .candidate := Decidable.not_not.mp h2
  dsimp only
  generalize (if di = true then _ else c.ctx : VoteCtx N) = x1
  generalize (if g = true ∧ some r.peer = c.lastLeader then _ else _ : Ballot N) = b2
  generalize (if g = true then x1.reserved else _ : List N) = rs
  by_cases h6 : g = true ∧ b2.granted = true
  · rw [if_pos h6]
    refine (becomeLeader_out (p := p) (c0 := c0) i (c := c) (c1 := { c with rpcs := c.rpcs.erase r, ctx := { x1 with ballot := b2, reserved := rs } }) ⟨rfl, rfl, rfl, rfl, rfl⟩ rfl rfl).congr rfl rfl ?_
    dsimp only
    rw [hst]
    rfl
  rw [if_neg h6]
  by_cases h7 : x1.disrupted = none
  · rw [if_pos h7]; exact .same ⟨rfl, rfl, rfl, rfl, rfl⟩ rfl rfl
  · rw [if_neg h7]; exact .same ⟨rfl, rfl, rfl, rfl, rfl⟩ rfl rfl

/-! ### Actions of a server -/

/-- The history variable when nothing is queued. -/
theorem z_same {x : LNode N D} {c c' : Srv N D} (h : c'.queue = c.queue) :
    x.z ++ pairUp (x.lm.queue.drop x.lm.queue.length) (c'.queue.drop c.queue.length) = x.z := by
  rw [h, List.drop_length, List.drop_length, pairUp_nil_nil, List.append_nil]

theorem Live.keep {c c' : Srv N D} {x : LNode N D} (h : Live c x) (hs : Same c c') :
    Live c' ⟨x.lm, x.z ++ pairUp (x.lm.queue.drop x.lm.queue.length) (c'.queue.drop c.queue.length)⟩ := by
  rw [z_same hs.queue]
  exact h.frame hs.log hs.disk hs.queue hs.snap hs.applied

theorem Dead.keep {c c' : Srv N D} {x : LNode N D} (h : Dead c x) (hs : Same c c') :
    Dead c' ⟨x.lm, x.z ++ pairUp (x.lm.queue.drop x.lm.queue.length) (c'.queue.drop c.queue.length)⟩ := by
  rw [z_same hs.queue]
  exact h.frame hs.log hs.disk hs.queue hs.snap

/-- Restart of a node without error. -/
theorem Live.restart {c c1 : Srv N D} {x : LNode N D} (h : Live c x) (f : SF c) (hs : Same c c1) (hp : c1.psnap = c.psnap) :
    Live (restartSrv c1) ⟨bootLm x.lm.store c.psnap, pairUp (bootLm x.lm.store c.psnap).queue (restartSrv c1).queue⟩ := by
  obtain ⟨n, hr⟩ := h.st
  have hle := h.first_le
  have hfst := h.fst
  have hnf := hr.first
  have hsp := f.sp.length_le
  refine boot_live hr f.dpos f.ppos (by omega) ?_ ?_ ?_ ?_ ?_ ?_
  · rcases h.bs.head with hb | hb
    · left; omega
    · by_cases hlt : n < c.psnap.length
      · exact Or.inl hlt
      · right
        rw [show (x.lm.store.first - 1).toNat = n by omega] at hb
        rw [hb]
        obtain ⟨r1, hr1⟩ := f.sn
        obtain ⟨r2, hr2⟩ := f.sp
        rw [← hr1, ← hr2, List.take_append_of_le_length (by omega), List.take_append_of_le_length (by omega)]
  · show snapMerge c1.psnap c1.disk = _; rw [hp, hs.disk]
  · show c1.disk = _; rw [hs.disk]
  · show loadJobs c1.psnap = _; rw [hp]
  · show c1.psnap = _; rw [hp]
  · show c1.psnap.length = _; rw [hp]

/-- Elections. -/
theorem Live.elects {c : Srv N D} {x : LNode N D} (h : Live c x) (f : SF c) {r : Res N D} {ab : Bool} (o : Out c0 c r ab)
    (f' : SF r.1) (cid : Nat) :
    (ab = true → Live r.1 ⟨bootLm x.lm.store c.psnap, pairUp (bootLm x.lm.store c.psnap).queue r.1.queue⟩) ∧
    (ab = false → Live r.1 ⟨if led r then x.lm.appendLeader [((c.term : Int), .conf (confOf c0 c.log))] cid else x.lm,
      x.z ++ pairUp ((if led r then x.lm.appendLeader [((c.term : Int), .conf (confOf c0 c.log))] cid else x.lm).queue.drop x.lm.queue.length)
        (r.1.queue.drop c.queue.length)⟩) := by
  cases o with
  | same hs hl ha =>
    refine ⟨fun h1 => (by rw [ha] at h1; cases h1), fun _ => ?_⟩
    rw [hl]
    exact h.keep hs
  | boot c1 hs hp hr ha =>
    refine ⟨fun _ => ?_, fun h1 => (by rw [ha] at h1; cases h1)⟩
    rw [hr]
    exact h.restart f hs hp
  | lead c1 hs hr hl ha =>
    refine ⟨fun h1 => (by rw [ha] at h1; cases h1), fun _ => ?_⟩
    rw [hl]
    simp only [if_true]
    have hlog : r.1.log = c.log ++ [⟨c.term, .conf (confOf c0 c.log)⟩] := by
      rw [hr]; show c1.log ++ _ = _; rw [hs.log]
    refine h.own f [⟨c.term, .conf (confOf c0 c.log)⟩] cid (.leader (c1.log.length + 1) 1) (fun _ => rfl) hlog ?_ ?_ ?_ ?_ ?_
    · rw [hr]; exact hs.disk
    · rw [hr]
      show c1.queue ++ _ ++ _ = _
      rw [hs.queue, List.append_assoc]
      rfl
    · rw [hr]; exact hs.snap
    · rw [hr]; exact hs.applied
    · intro e he
      exact f'.pos e (by rw [hlog]; exact List.mem_append_right _ he)

/-- Own entries of a leader. -/
theorem Live.ownEntries {c : Srv N D} {x : LNode N D} (h : Live c x) (f : SF c) (cf : Conf N) (es : Log N D)
    (f' : SF (sAppendOwn c cf es)) (cid : Nat) :
    Live (sAppendOwn c cf es) ⟨x.lm.appendLeader (vals es) cid, x.z ++
      pairUp ((x.lm.appendLeader (vals es) cid).queue.drop x.lm.queue.length) ((sAppendOwn c cf es).queue.drop c.queue.length)⟩ := by
  refine h.own f es cid (.leader (c.log.length + 1) es.length) (fun _ => rfl) rfl rfl ?_ rfl rfl ?_
  · show c.queue ++ _ ++ _ = _
    rw [List.append_assoc]
  · intro e he
    exact f'.pos e (by show e ∈ c.log ++ es; exact List.mem_append_right _ he)

theorem idLe_iff {m : LM N D} {K : Log N D} {a t : Nat} (h : m.applied = ⟨a, t⟩) :
    (idOf K).lt m.applied = !idLe (t, a) (lastId K) := by
  rw [h]
  unfold idOf idLe lastId Id.lt
  dsimp only
  by_cases h1 : lastTerm K = t
  · rw [if_pos (by omega), if_pos h1.symm]
    by_cases h2 : a ≤ K.length
    · rw [decide_eq_false (by omega), decide_eq_true h2]; rfl
    · rw [decide_eq_true (by omega), decide_eq_false h2]; rfl
  · rw [if_neg (by omega), if_neg (by omega)]
    by_cases h2 : t < lastTerm K
    · rw [decide_eq_false (by omega), decide_eq_true h2]; rfl
    · rw [decide_eq_true (by omega), decide_eq_false h2]; rfl

/-- A request with entries. -/
theorem Live.appendReq {c : Srv N D} {x : LNode N D} (h : Live c x) (f : SF c) (i : N) (t : Nat) (srv : N) (prev pt : Nat)
    (es : Log N D) (cm : Nat) (ok gone : Bool) (cid : Nat) (hgone : gone = goneOf x.lm prev) (hfront : frontOk x.lm prev es = true)
    (hes : ∀ e ∈ es, 1 ≤ e.term) (hp1 : 0 < prev → 1 ≤ pt) (hp0 : prev = 0 → pt = 0)
    (f' : SF (sAppend i c t srv prev pt es cm ok gone).1) :
    Live (sAppend i c t srv prev pt es cm ok gone).1
      ⟨if reaches i c x.lm t srv prev pt es ok then x.lm.append (ents prev es) cid else x.lm,
       x.z ++ pairUp ((if reaches i c x.lm t srv prev pt es ok then x.lm.append (ents prev es) cid else x.lm).queue.drop x.lm.queue.length)
         ((sAppend i c t srv prev pt es cm ok gone).1.queue.drop c.queue.length)⟩ := by
  have hcs := checkStepDown_same i c t srv ok
  have hcdl : (sCheckStepDown i c t srv ok).1.dl = c.dl := by
    unfold sCheckStepDown
    dsimp only
    repeat' split
    all_goals rfl
  have hcsm : (sCheckStepDown i c t srv ok).1.sm = c.sm := by
    unfold sCheckStepDown
    dsimp only
    repeat' split
    all_goals rfl
  have hterm := h.term f prev
  rw [← hgone] at hterm
  have hteq : x.lm.getTerm (prev : Int) = ((if gone then 0 else termAt c.log prev : Nat) : Int) := by
    rw [hterm]; cases gone <;> rfl
  generalize hx : sAppend i c t srv prev pt es cm ok gone = R at f' ⊢
  unfold sAppend at hx
  unfold reaches
  by_cases h1 : t < c.term
  · rw [if_pos h1] at hx
    have hr : (decide (c.term ≤ t) && decide ((sCheckStepDown i c t srv ok).1.leaderId = some srv) && decide (es ≠ []) && c.dl.isNone && decide (x.lm.getTerm prev = (pt : Int))) = false := by
      rw [decide_eq_false (show ¬ c.term ≤ t by omega)]; rfl
    rw [hr, ← hx]
    exact h.keep (Same.rfl' c)
  rw [if_neg h1] at hx
  rw [decide_eq_true (show c.term ≤ t by omega), Bool.true_and]
  dsimp only at hx
  by_cases h2 : (sCheckStepDown i c t srv ok).1.leaderId ≠ some srv
  · rw [if_pos h2] at hx
    rw [decide_eq_false h2, ← hx]
    exact h.keep (hcs.trans (stepDown_same ..))
  rw [if_neg h2] at hx
  rw [decide_eq_true (Decidable.not_not.mp h2), Bool.true_and]
  by_cases h3 : es ≠ [] ∧ (sCheckStepDown i c t srv ok).1.dl.isSome
  · rw [if_pos h3] at hx
    have hd : c.dl.isNone = false := by
      have := h3.2; rw [hcdl] at this
      cases hc : c.dl with
      | none => rw [hc] at this; cases this
      | some _ => rfl
    rw [hd, Bool.and_false, Bool.false_and, ← hx]
    exact h.keep (by constructor <;> first | rfl | exact hcs.log | exact hcs.disk | exact hcs.queue | exact hcs.snap | exact hcs.applied)
  rw [if_neg h3] at hx
  rw [hcs.log, hcs.applied, hcs.queue] at hx
  by_cases h4 : (if gone then 0 else termAt c.log prev) ≠ pt
  · rw [if_pos h4] at hx
    rw [hteq, decide_eq_false (show ¬ ((if gone then 0 else termAt c.log prev : Nat) : Int) = (pt : Int) by omega), Bool.and_false, ← hx]
    exact h.keep (by constructor <;> first | rfl | exact hcs.log | exact hcs.disk | exact hcs.queue | exact hcs.snap | exact hcs.applied)
  rw [if_neg h4] at hx
  have h4' := Decidable.not_not.mp h4
  rw [hteq, decide_eq_true (show ((if gone then 0 else termAt c.log prev : Nat) : Int) = (pt : Int) by omega), Bool.and_true]
  by_cases h5 : es = []
  · rw [if_pos h5] at hx
    rw [decide_eq_false (show ¬ es ≠ [] by simpa using h5), Bool.false_and, ← hx]
    exact h.keep (by constructor <;> first | rfl | exact hcs.log | exact hcs.disk | exact hcs.queue | exact hcs.snap | exact hcs.applied)
  rw [if_neg h5] at hx
  have hdn : c.dl.isNone = true := by
    cases hc : c.dl with
    | none => rfl
    | some K => exact absurd ⟨h5, by rw [hcdl, hc]; rfl⟩ h3
  rw [decide_eq_true h5, hdn]
  simp only [Bool.and_self, if_true]
  obtain ⟨n, v⟩ := h.view f
  have hfst := h.fst
  have hvf := v.first
  have hprev : prev ≤ c.log.length := by
    by_cases h0 : prev = 0
    · omega
    · have hp := hp1 (by omega)
      apply Decidable.byContradiction
      intro hc
      rw [termAt_beyond (by omega)] at h4'
      cases gone <;> simp at h4' <;> omega
  by_cases h6 : prev + es.length ≤ c.applied
  · rw [if_pos h6] at hx
    rw [← hx]
    exact h.known f v prev es cid hprev h5 h6 rfl hcs.disk rfl hcs.snap rfl
  rw [if_neg h6] at hx
  rw [← hx] at f' ⊢
  have hn : n ≤ prev := by
    by_cases h0 : prev = 0
    · unfold frontOk at hfront
      rw [decide_eq_false (show ¬ prev ≠ 0 by simpa using h0), Bool.false_or, Bool.or_eq_true, decide_eq_true_eq, decide_eq_true_eq] at hfront
      have hai : x.lm.applied.index = c.applied := by rw [h.app]
      rcases hfront with h7 | h7 <;> omega
    · have hp := hp1 (by omega)
      apply Decidable.byContradiction
      intro hc
      -- compacted: get_term answers 0
      have hz : x.lm.getTerm (prev : Int) = 0 := by
        have hg := v.inv.toInv0.getTerm (prev : Int)
        rw [LogMgr.Sto.at_none (Or.inl (by show (prev : Int) < x.lm.first; omega))] at hg
        dsimp only at hg
        have hsn : x.lm.snap.index = c.snap.length := by rw [h.snap]; rfl
        rw [if_neg (by omega), if_neg (by omega), if_neg] at hg
        · exact hg
        · intro hv
          have := v.virt_le hv.symm h0
          omega
      rw [hteq] at hz
      omega
  have happ := f'.sm
  have hta : (drainJobs c.log (resolveJobs c.log prev es)).take c.applied = c.log.take c.applied := by
    have e1 : (sCheckStepDown i c t srv ok).1.sm = (drainJobs c.log (resolveJobs c.log prev es)).take c.applied := happ
    rw [hcsm, f.sm] at e1
    exact e1.symm
  refine h.append f v prev es cid (.follower (sCheckStepDown i c t srv ok).1.term (prev + es.length) es.length cm srv) (fun _ => rfl) rfl hn hprev h5 h6 hes
    rfl hcs.disk ?_ hcs.snap rfl hta
  show c.queue ++ _ ++ _ = _
  rw [List.append_assoc]

end Braft.Cl
