import Verif.Cluster.Witness
/-
Logs and servers that differ in the data of entries only, and what the handlers make of them: they look at the terms,
configurations and number of entries only.
-/
set_option linter.unusedVariables false
set_option linter.unusedSimpArgs false
set_option linter.unusedSectionVars false

namespace Braft.Cl
open Braft.Raft
variable {N D : Type}

/-- `e'` is `e`, or `e` without its data: if `any`, with arbitrary data instead, else not readable. -/
def Blur (any : Bool) (e e' : Entry N (Option D)) : Prop :=
  e' = e ∨ (e'.term = e.term ∧ e.conf? = none ∧ e'.conf? = none ∧ (any = true ∨ e'.payload = .data none))

theorem Blur.term {any : Bool} {e e' : Entry N (Option D)} (h : Blur any e e') : e'.term = e.term := by
  rcases h with rfl | h
  · rfl
  · exact h.1

theorem Blur.conf {any : Bool} {e e' : Entry N (Option D)} (h : Blur any e e') : e'.conf? = e.conf? := by
  rcases h with rfl | h
  · rfl
  · rw [h.2.1, h.2.2.1]

/-- Logs that differ in the data only. -/
inductive BL (any : Bool) : Log N (Option D) → Log N (Option D) → Prop where
  | nil : BL any [] []
  | cons {e e' l l'} : Blur any e e' → BL any l l' → BL any (e :: l) (e' :: l')

variable {any : Bool}

theorem BL.refl : ∀ l : Log N (Option D), BL any l l
  | [] => .nil
  | e :: l => .cons (Or.inl rfl) (BL.refl l)

theorem BL.len {l l' : Log N (Option D)} (h : BL any l l') : l'.length = l.length := by
  induction h with
  | nil => rfl
  | cons _ _ ih => simp [ih]

theorem BL.append {a a' b b' : Log N (Option D)} (h : BL any a a') (k : BL any b b') : BL any (a ++ b) (a' ++ b') := by
  induction h with
  | nil => exact k
  | cons x _ ih => exact .cons x ih

theorem BL.take {l l' : Log N (Option D)} (h : BL any l l') (n : Nat) : BL any (l.take n) (l'.take n) := by
  induction h generalizing n with
  | nil => simp only [List.take_nil]; exact .nil
  | cons x _ ih =>
    cases n with
    | zero => exact .nil
    | succ n => exact .cons x (ih n)

theorem BL.drop {l l' : Log N (Option D)} (h : BL any l l') (n : Nat) : BL any (l.drop n) (l'.drop n) := by
  induction h generalizing n with
  | nil => simp only [List.drop_nil]; exact .nil
  | cons x y ih =>
    cases n with
    | zero => exact .cons x y
    | succ n => exact ih n

theorem BL.dropLast {l l' : Log N (Option D)} (h : BL any l l') : BL any l.dropLast l'.dropLast := by
  rw [List.dropLast_eq_take, List.dropLast_eq_take, h.len]
  exact h.take _

theorem BL.get {l l' : Log N (Option D)} (h : BL any l l') (k : Nat) :
    (l[k]? = none ∧ l'[k]? = none) ∨ ∃ e e', l[k]? = some e ∧ l'[k]? = some e' ∧ Blur any e e' := by
  induction h generalizing k with
  | nil => exact Or.inl ⟨rfl, rfl⟩
  | cons x _ ih =>
    cases k with
    | zero => exact Or.inr ⟨_, _, rfl, rfl, x⟩
    | succ k => exact ih k

theorem BL.termAt {l l' : Log N (Option D)} (h : BL any l l') (k : Nat) : termAt l' k = termAt l k := by
  unfold Raft.termAt
  split
  · rfl
  · rcases h.get (k - 1) with ⟨h1, h2⟩ | ⟨e, e', h1, h2, hb⟩
    · rw [h1, h2]
    · rw [h1, h2]; exact hb.term

theorem BL.lastTerm {l l' : Log N (Option D)} (h : BL any l l') : lastTerm l' = lastTerm l := by
  unfold Raft.lastTerm
  rw [List.getLast?_eq_getElem?, List.getLast?_eq_getElem?, h.len]
  rcases h.get (l.length - 1) with ⟨h1, h2⟩ | ⟨e, e', h1, h2, hb⟩
  · rw [h1, h2]
  · rw [h1, h2]; exact hb.term

theorem BL.lastId {l l' : Log N (Option D)} (h : BL any l l') : lastId l' = lastId l := by
  unfold Raft.lastId; rw [h.lastTerm, h.len]

theorem BL.confOf {l l' : Log N (Option D)} (h : BL any l l') (c0 : Conf N) : confOf c0 l' = confOf c0 l := by
  unfold Raft.confOf
  induction h generalizing c0 with
  | nil => rfl
  | cons x _ ih => rw [List.foldl_cons, List.foldl_cons, x.conf]; exact ih _

theorem BL.reverse {l l' : Log N (Option D)} (h : BL any l l') : BL any l.reverse l'.reverse := by
  induction h with
  | nil => exact .nil
  | cons x _ ih => rw [List.reverse_cons, List.reverse_cons]; exact ih.append (.cons x .nil)

theorem BL.takeWhile {l l' : Log N (Option D)} (h : BL any l l') :
    (l'.takeWhile (fun e => e.conf?.isNone)).length = (l.takeWhile (fun e => e.conf?.isNone)).length := by
  induction h with
  | nil => rfl
  | cons x _ ih =>
    rw [List.takeWhile_cons, List.takeWhile_cons, x.conf]
    split
    · simp [ih]
    · rfl

theorem BL.lastConfIdx {l l' : Log N (Option D)} (h : BL any l l') : lastConfIdx l' = lastConfIdx l := by
  unfold Raft.lastConfIdx
  rw [h.len, h.reverse.takeWhile]

theorem BL.matchLen {l l' es es' : Log N (Option D)} (h : BL any l l') (k : BL any es es') :
    matchLen l' es' = matchLen l es := by
  induction h generalizing es es' with
  | nil => cases k <;> rfl
  | cons x _ ih =>
    cases k with
    | nil => rfl
    | cons y k =>
      unfold Raft.matchLen
      rw [x.term, y.term, ih k]

theorem BL.snapMerge {K K' l l' : Log N (Option D)} (h : BL any K K') (k : BL any l l') :
    BL any (snapMerge K l) (snapMerge K' l') := by
  unfold Raft.snapMerge
  rw [h.len, k.termAt, h.lastTerm]
  split
  · exact k
  · exact h

theorem BL.nil_iff {l l' : Log N (Option D)} (h : BL any l l') : l' = [] ↔ l = [] := by
  cases h <;> simp

/-- Steps of the disk queue that differ in the data only. -/
inductive JB (any : Bool) : Job N (Option D) → Job N (Option D) → Prop where
  | push {e e'} : Blur any e e' → JB any (.push e) (.push e')
  | snap {K K'} : BL any K K' → JB any (.snap K) (.snap K')
  | pop : JB any .pop .pop
  | follower (t u n c l) : JB any (.follower t u n c l) (.follower t u n c l)
  | leader (f n) : JB any (.leader f n) (.leader f n)

inductive QB (any : Bool) : List (Job N (Option D)) → List (Job N (Option D)) → Prop where
  | nil : QB any [] []
  | cons {j j' q q'} : JB any j j' → QB any q q' → QB any (j :: q) (j' :: q')

theorem QB.append {a a' b b' : List (Job N (Option D))} (h : QB any a a') (k : QB any b b') : QB any (a ++ b) (a' ++ b') := by
  induction h with
  | nil => exact k
  | cons x _ ih => exact .cons x ih

theorem QB.len {q q' : List (Job N (Option D))} (h : QB any q q') : q'.length = q.length := by
  induction h with
  | nil => rfl
  | cons _ _ ih => simp [ih]

theorem QB.nil_iff {q q' : List (Job N (Option D))} (h : QB any q q') : q' = [] ↔ q = [] := by cases h <;> simp

theorem JB.apply {j j' : Job N (Option D)} {l l' : Log N (Option D)} (h : JB any j j') (k : BL any l l') :
    BL any (applyJob l j) (applyJob l' j') := by
  cases h with
  | push x => exact k.append (.cons x .nil)
  | snap x => exact x.snapMerge k
  | pop => exact k.dropLast
  | follower => exact k
  | leader => exact k

theorem QB.drain {q q' : List (Job N (Option D))} {l l' : Log N (Option D)} (h : QB any q q') (k : BL any l l') :
    BL any (drainJobs l q) (drainJobs l' q') := by
  unfold drainJobs
  induction h generalizing l l' with
  | nil => exact k
  | cons x _ ih => exact ih (x.apply k)

theorem QB.noLeader {q q' : List (Job N (Option D))} (h : QB any q q') : noLeaderJob q' = noLeaderJob q := by
  unfold noLeaderJob
  induction h with
  | nil => rfl
  | cons x _ ih => rw [List.all_cons, List.all_cons, ih]; cases x <;> rfl

theorem QB.pushes {es es' : Log N (Option D)} (h : BL any es es') : QB any (es.map .push) (es'.map .push) := by
  induction h with
  | nil => exact .nil
  | cons x _ ih => exact .cons (.push x) ih

theorem QB.pops : ∀ n : Nat, QB (N := N) (D := D) any (List.replicate n .pop) (List.replicate n .pop)
  | 0 => .nil
  | n + 1 => .cons .pop (QB.pops n)

variable [DecidableEq N] [DecidableEq D]

theorem QB.resolve {l l' es es' : Log N (Option D)} (h : BL any l l') (k : BL any es es') (prev : Nat) :
    QB any (resolveJobs l prev es) (resolveJobs l' prev es') := by
  unfold resolveJobs
  dsimp only
  rw [(h.drop prev).matchLen k, h.len, k.len]
  refine QB.append ?_ (QB.pushes (k.drop _))
  split
  · exact QB.pops _
  · exact .nil

theorem QB.load {K K' : Log N (Option D)} (h : BL any K K') : QB any (loadJobs K) (loadJobs K') := by
  unfold loadJobs
  by_cases h0 : K = []
  · rw [if_pos h0, if_pos (h.nil_iff.mpr h0)]; exact .nil
  · rw [if_neg h0, if_neg (fun x => h0 (h.nil_iff.mp x))]; exact .cons (.snap h) .nil

/-- Downloads that differ in the data only. -/
inductive OB (any : Bool) : Option (Log N (Option D)) → Option (Log N (Option D)) → Prop where
  | no : OB any none none
  | yes {K K'} : BL any K K' → OB any (some K) (some K')

theorem OB.none_iff {d d' : Option (Log N (Option D))} (h : OB any d d') : d' = none ↔ d = none := by cases h <;> simp

theorem OB.isSome {d d' : Option (Log N (Option D))} (h : OB any d d') : d'.isSome = d.isSome := by cases h <;> rfl

/-- `c` with other logs. -/
def withLogs (c : Srv N (Option D)) (l d : Log N (Option D)) (q : List (Job N (Option D))) (sn ps : Log N (Option D))
    (dl : Option (Log N (Option D))) (sm : Log N (Option D)) : Srv N (Option D) :=
  { c with log := l, disk := d, queue := q, snap := sn, psnap := ps, dl := dl, sm := sm }

/-- Servers that differ in the data of entries only. -/
inductive SB (any : Bool) (c : Srv N (Option D)) : Srv N (Option D) → Prop where
  | mk {l d q sn ps dl sm} : BL any c.log l → BL any c.disk d → QB any c.queue q → BL any c.snap sn → BL any c.psnap ps →
      OB any c.dl dl → BL any c.sm sm → SB any c (withLogs c l d q sn ps dl sm)

/-- Results of handlers that differ in the data of the node only. -/
def RB (any : Bool) (r r' : Res N (Option D)) : Prop := SB any r.1 r'.1 ∧ r'.2 = r.2

variable {c c' : Srv N (Option D)}

theorem SB.stepDown (h : SB any c c') (t : Nat) (ok : Bool) : SB any (sStepDown c t ok) (sStepDown c' t ok) := by
  cases h with
  | mk h1 h2 h3 h4 h5 h6 h7 => exact .mk (c := sStepDown c t ok) h1 h2 h3 h4 h5 h6 h7

theorem SB.restart (h : SB any c c') : SB any (restartSrv c) (restartSrv c') := by
  cases h with
  | @mk l d q sn ps dl sm h1 h2 h3 h4 h5 h6 h7 =>
    have hm := h5.snapMerge h2
    have e : restartSrv (withLogs c l d q sn ps dl sm) =
        withLogs (restartSrv c) (snapMerge ps d) d (loadJobs ps) ps ps none ps := by
      simp only [restartSrv, withLogs, hm.lastTerm, h5.len]
      rfl
    rw [e]
    exact .mk hm h2 (QB.load h5) h5 h5 .no h5

theorem SB.checkStepDown (h : SB any c c') (i : N) (t : Nat) (srv : N) (ok : Bool) :
    SB any (sCheckStepDown i c t srv ok).1 (sCheckStepDown i c' t srv ok).1 ∧
    (sCheckStepDown i c' t srv ok).2 = (sCheckStepDown i c t srv ok).2 := by
  cases h with
  | @mk l d q sn ps dl sm h1 h2 h3 h4 h5 h6 h7 =>
    unfold sCheckStepDown
    dsimp only
    by_cases hc : c.term < t ∨ c.state ≠ .follower ∨ c.leaderId = none
    · have hc' : (withLogs c l d q sn ps dl sm).term < t ∨ (withLogs c l d q sn ps dl sm).state ≠ .follower ∨
          (withLogs c l d q sn ps dl sm).leaderId = none := hc
      simp only [hc, hc', if_true]
      exact ⟨.mk (c := { sStepDown c t ok with leaderId := some srv }) h1 h2 h3 h4 h5 h6 h7, rfl⟩
    · have hc' : ¬ ((withLogs c l d q sn ps dl sm).term < t ∨ (withLogs c l d q sn ps dl sm).state ≠ .follower ∨
          (withLogs c l d q sn ps dl sm).leaderId = none) := hc
      simp only [hc, hc', if_false]
      by_cases hl : c.leaderId = none
      · exact absurd (Or.inr (Or.inr hl)) hc
      · have hl' : (withLogs c l d q sn ps dl sm).leaderId ≠ none := hl
        rw [if_neg hl, if_neg hl']
        exact ⟨.mk h1 h2 h3 h4 h5 h6 h7, rfl⟩

theorem SB.askId (h : SB any c c') : askId c' = askId c ∧ askRest c' = askRest c := by
  cases h with
  | @mk l d q sn ps dl sm h1 h2 h3 h4 h5 h6 h7 =>
    unfold Cl.askId askRest
    have e1 : (withLogs c l d q sn ps dl sm).log.length = c.log.length := h1.len
    have e2 : (withLogs c l d q sn ps dl sm).snap.length = c.snap.length := h4.len
    have e3 : lastId (withLogs c l d q sn ps dl sm).snap = lastId c.snap := h4.lastId
    have e4 : lastId (drainJobs (withLogs c l d q sn ps dl sm).disk (withLogs c l d q sn ps dl sm).queue) =
        lastId (drainJobs c.disk c.queue) := (h3.drain h2).lastId
    have e5 : (withLogs c l d q sn ps dl sm).queue.length = c.queue.length := h3.len
    rw [e1, e2, e3, e4, e5]
    exact ⟨rfl, rfl⟩

theorem SB.conf (h : SB any c c') (c0 : Conf N) : confOf c0 c'.log = confOf c0 c.log := by
  cases h with
  | mk h1 => exact h1.confOf c0

theorem SB.electA (h : SB any c c') (c0 : Conf N) (i : N) (st : Bool) : SB any (sElectA c0 i c st) (sElectA c0 i c' st) := by
  have hc := h.conf c0
  have ha := h.askId
  cases h with
  | @mk l d q sn ps dl sm h1 h2 h3 h4 h5 h6 h7 =>
    unfold sElectA
    rw [hc, ha.1, ha.2]
    by_cases hx : i ∉ (confOf c0 c.log).peers ∧ i ∉ (confOf c0 c.log).old
    · rw [if_pos hx, if_pos hx]; exact .mk h1 h2 h3 h4 h5 h6 h7
    · rw [if_neg hx, if_neg hx]
      exact .mk (c := { c with
        leaderId := none, state := .candidate, term := c.term + 1, vote := some i,
        ctx := { c.ctx.init (confOf c0 c.log) with disrupted := if st then some (c.leaderId, c.term) else none },
        elects := { term := c.term + 1, claim := Cl.askId c, rest := askRest c } :: c.elects }) h1 h2 h3 h4 h5 h6 h7

theorem SB.requestPeers (h : SB any c c') (i : N) (ps : List N) :
    SB any (sRequestPeers i c ps).1 (sRequestPeers i c' ps).1 ∧ (sRequestPeers i c' ps).2 = (sRequestPeers i c ps).2 := by
  cases h with
  | mk h1 h2 h3 h4 h5 h6 h7 => exact ⟨.mk (c := (sRequestPeers i c ps).1) h1 h2 h3 h4 h5 h6 h7, rfl⟩

theorem SB.appendOwn (h : SB any c c') (cf : Conf N) (es : Log N (Option D)) : SB any (sAppendOwn c cf es) (sAppendOwn c' cf es) := by
  cases h with
  | @mk l d q sn ps dl sm h1 h2 h3 h4 h5 h6 h7 =>
    refine .mk (c := sAppendOwn c cf es) (h1.append (BL.refl es)) h2 ?_ h4 h5 h6 h7
    refine QB.append (QB.append h3 (QB.pushes (BL.refl es))) ?_
    show QB any [.leader (c.log.length + 1) es.length] [.leader (l.length + 1) es.length]
    rw [h1.len]
    exact .cons (.leader _ _) .nil

theorem SB.becomeLeader (h : SB any c c') (p : CParams) (c0 : Conf N) (i : N) :
    RB any (sBecomeLeader p c0 i c) (sBecomeLeader p c0 i c') := by
  have hc := h.conf c0
  have hr := h.restart
  cases h with
  | @mk l d q sn ps dl sm h1 h2 h3 h4 h5 h6 h7 =>
    unfold sBecomeLeader
    dsimp only
    by_cases hx : c.state ≠ .candidate ∧ p.checkAborts = true
    · have hx' : (withLogs c l d q sn ps dl sm).state ≠ .candidate ∧ p.checkAborts = true := hx
      rw [if_pos hx, if_pos hx']
      exact ⟨hr, rfl⟩
    · have hx' : ¬ ((withLogs c l d q sn ps dl sm).state ≠ .candidate ∧ p.checkAborts = true) := hx
      rw [if_neg hx, if_neg hx', hc]
      have e1 : (withLogs c l d q sn ps dl sm).log.length = c.log.length := h1.len
      rw [e1]
      exact ⟨SB.appendOwn (.mk (c := { c with
        ctx := c.ctx.reset, state := .leader, leaderId := some i, lastLeader := none,
        bb := c.bb.resetPendingIndex (c.log.length + 1) }) h1 h2 h3 h4 h5 h6 h7) _ _, rfl⟩

/-- Changing members other than the logs. -/
theorem SB.map {f : Srv N (Option D) → Srv N (Option D)} (h : SB any c c')
    (hf : ∀ l d q sn ps dl sm, f (withLogs c l d q sn ps dl sm) = withLogs (f c) l d q sn ps dl sm)
    (h1 : (f c).log = c.log) (h2 : (f c).disk = c.disk) (h3 : (f c).queue = c.queue) (h4 : (f c).snap = c.snap)
    (h5 : (f c).psnap = c.psnap) (h6 : (f c).dl = c.dl) (h7 : (f c).sm = c.sm) : SB any (f c) (f c') := by
  cases h with
  | mk k1 k2 k3 k4 k5 k6 k7 =>
    rw [hf]
    exact .mk (by rw [h1]; exact k1) (by rw [h2]; exact k2) (by rw [h3]; exact k3) (by rw [h4]; exact k4) (by rw [h5]; exact k5)
      (by rw [h6]; exact k6) (by rw [h7]; exact k7)

theorem SB.grantSelf (h : SB any c c') (p : CParams) (c0 : Conf N) (i : N) (free : Bool) :
    RB any (sGrantSelf p c0 i c free) (sGrantSelf p c0 i c' free) := by
  have e : c'.ctx = c.ctx := by cases h; rfl
  have k := h.map (f := fun c => { c with ctx := { c.ctx with ballot := c.ctx.ballot.grant i } })
    (fun _ _ _ _ _ _ _ => rfl) rfl rfl rfl rfl rfl rfl rfl
  have k2 := h.map (f := fun c => { c with timers := c.ctx.version :: c.timers }) (fun _ _ _ _ _ _ _ => rfl) rfl rfl rfl rfl rfl rfl rfl
  unfold sGrantSelf
  dsimp only
  split
  · rw [e] at k ⊢
    split
    · exact k.becomeLeader p c0 i
    · exact ⟨k, rfl⟩
  · exact ⟨k2, rfl⟩

theorem SB.electAsk (h : SB any c c') (c0 : Conf N) (i : N) (f : EFrame) :
    SB any (sElectAsk c0 i c f).1 (sElectAsk c0 i c' f).1 ∧ (sElectAsk c0 i c' f).2 = (sElectAsk c0 i c f).2 := by
  unfold sElectAsk
  rw [h.conf c0]
  exact (h.map (f := fun c => { c with elects := c.elects.erase f, ctx := { c.ctx with lastId := f.claim } })
    (fun _ _ _ _ _ _ _ => rfl) rfl rfl rfl rfl rfl rfl rfl).requestPeers i _

theorem SB.term (h : SB any c c') : c'.term = c.term := by cases h; rfl
theorem SB.state (h : SB any c c') : c'.state = c.state := by cases h; rfl
theorem SB.ctx (h : SB any c c') : c'.ctx = c.ctx := by cases h; rfl
theorem SB.leaderId (h : SB any c c') : c'.leaderId = c.leaderId := by cases h; rfl
theorem SB.lastLeader (h : SB any c c') : c'.lastLeader = c.lastLeader := by cases h; rfl
theorem SB.vote (h : SB any c c') : c'.vote = c.vote := by cases h; rfl
theorem SB.applied (h : SB any c c') : c'.applied = c.applied := by cases h; rfl
theorem SB.bb (h : SB any c c') : c'.bb = c.bb := by cases h; rfl
theorem SB.repl (h : SB any c c') : c'.repl = c.repl := by cases h; rfl
theorem SB.elects (h : SB any c c') : c'.elects = c.elects := by cases h; rfl
theorem SB.vcalls (h : SB any c c') : c'.vcalls = c.vcalls := by cases h; rfl
theorem SB.rpcs (h : SB any c c') : c'.rpcs = c.rpcs := by cases h; rfl
theorem SB.timers (h : SB any c c') : c'.timers = c.timers := by cases h; rfl
theorem SB.pterm (h : SB any c c') : c'.pterm = c.pterm := by cases h; rfl
theorem SB.log (h : SB any c c') : BL any c.log c'.log := by cases h; assumption
theorem SB.disk (h : SB any c c') : BL any c.disk c'.disk := by cases h; assumption
theorem SB.queue (h : SB any c c') : QB any c.queue c'.queue := by cases h; assumption
theorem SB.snap (h : SB any c c') : BL any c.snap c'.snap := by cases h; assumption
theorem SB.psnap (h : SB any c c') : BL any c.psnap c'.psnap := by cases h; assumption
theorem SB.dl (h : SB any c c') : OB any c.dl c'.dl := by cases h; assumption
theorem SB.sm (h : SB any c c') : BL any c.sm c'.sm := by cases h; assumption

theorem SB.electB (h : SB any c c') (p : CParams) (c0 : Conf N) (i : N) (f : EFrame) (ok free : Bool) :
    RB any (sElectB p c0 i c f ok free) (sElectB p c0 i c' f ok free) := by
  have k := h.map (f := fun c => { c with elects := c.elects.erase f }) (fun _ _ _ _ _ _ _ => rfl) rfl rfl rfl rfl rfl rfl rfl
  have ka := h.electAsk c0 i f
  unfold sElectB
  dsimp only at k ⊢
  rw [h.term] at k ⊢
  split
  · exact ⟨k, rfl⟩
  · split
    · have kg := (ka.1.map (f := fun c => { c with pterm := c.term, pvote := some i })
        (fun _ _ _ _ _ _ _ => rfl) rfl rfl rfl rfl rfl rfl rfl).grantSelf p c0 i free
      refine ⟨kg.1, ?_⟩
      dsimp only at kg ⊢
      rw [kg.2, ka.2]
    · refine ⟨ka.1.map (f := fun c => { c with vote := none }) (fun _ _ _ _ _ _ _ => rfl) rfl rfl rfl rfl rfl rfl rfl, ?_⟩
      dsimp only; rw [ka.2]

theorem SB.timer (h : SB any c c') (p : CParams) (c0 : Conf N) (i : N) (v : Nat) (free : Bool) :
    RB any (sTimer p c0 i c v free) (sTimer p c0 i c' v free) := by
  have k := h.map (f := fun c => { c with timers := c.timers.erase v }) (fun _ _ _ _ _ _ _ => rfl) rfl rfl rfl rfl rfl rfl rfl
  unfold sTimer
  dsimp only at k ⊢
  rw [h.ctx] at k ⊢
  split
  · exact ⟨k, rfl⟩
  · exact k.grantSelf p c0 i free

/-- The end of `sVoteRes`. -/
def voteTail (p : CParams) (c0 : Conf N) (i : N) (c : Srv N (Option D)) (x : VoteCtx N) (g : Bool) : Res N (Option D) :=
  if g ∧ x.ballot.granted then sBecomeLeader p c0 i { c with ctx := x }
  else if x.disrupted = none then ({ c with ctx := x }, [], [])
  else
    let r2 := sRequestPeers i { c with ctx := { x with reserved := [] } } x.reserved
    (r2.1, r2.2, [])

theorem SB.voteTail (h : SB any c c') (p : CParams) (c0 : Conf N) (i : N) (x : VoteCtx N) (g : Bool) :
    RB any (voteTail p c0 i c x g) (voteTail p c0 i c' x g) := by
  have k1 := h.map (f := fun c => { c with ctx := x }) (fun _ _ _ _ _ _ _ => rfl) rfl rfl rfl rfl rfl rfl rfl
  have k2 := (h.map (f := fun c => { c with ctx := { x with reserved := [] } })
    (fun _ _ _ _ _ _ _ => rfl) rfl rfl rfl rfl rfl rfl rfl).requestPeers i x.reserved
  unfold Cl.voteTail
  dsimp only at k1 k2 ⊢
  split
  · exact k1.becomeLeader p c0 i
  · split
    · exact ⟨k1, rfl⟩
    · exact ⟨k2.1, by rw [k2.2]⟩

theorem SB.voteRes (h : SB any c c') (p : CParams) (c0 : Conf N) (i : N) (r : Rpc N) (g rj dr : Bool) (rt pt : Nat) (ok : Bool) :
    RB any (sVoteRes p c0 i c r g rj dr rt pt ok) (sVoteRes p c0 i c' r g rj dr rt pt ok) := by
  have k : SB any ((fun c : Srv N (Option D) => { c with rpcs := c.rpcs.erase r }) c) ((fun c : Srv N (Option D) => { c with rpcs := c.rpcs.erase r }) c') :=
    h.map (f := fun c => { c with rpcs := c.rpcs.erase r }) (fun _ _ _ _ _ _ _ => rfl) rfl rfl rfl rfl rfl rfl rfl
  have e : ∀ y : Srv N (Option D), sVoteRes p c0 i y r g rj dr rt pt ok =
      (fun (z : Srv N (Option D)) (vx : VoteCtx N) (st : St) (tm : Nat) (ll : Option N) =>
        if r.version ≠ vx.version then (z, [], [])
        else if st ≠ .candidate then (z, [], [])
        else if r.term ≠ tm then (z, [], [])
        else if tm < rt then (sStepDown z rt ok, [], [])
        else if ¬ g ∧ ¬ rj then (z, [], [])
        else
          let x1 : VoteCtx N := if dr then { vx with disrupted := some (some r.peer, pt) } else vx
          let b1 := if g then x1.ballot.grant r.peer else x1.ballot
          Cl.voteTail p c0 i z { x1 with
            ballot := if g ∧ some r.peer = ll then b1.grant i else b1,
            reserved := if g then x1.reserved else r.peer :: x1.reserved } g)
      ((fun c : Srv N (Option D) => { c with rpcs := c.rpcs.erase r }) y) y.ctx y.state y.term y.lastLeader := fun y => rfl
  rw [e c, e c', h.ctx, h.state, h.term, h.lastLeader]
  generalize (fun c : Srv N (Option D) => { c with rpcs := c.rpcs.erase r }) = F at k ⊢
  generalize F c = z at k ⊢
  generalize F c' = z' at k ⊢
  dsimp only
  split
  · exact ⟨k, rfl⟩
  · split
    · exact ⟨k, rfl⟩
    · split
      · exact ⟨k, rfl⟩
      · split
        · exact ⟨k.stepDown rt ok, rfl⟩
        · split
          · exact ⟨k, rfl⟩
          · exact k.voteTail p c0 i _ g

theorem SB.voteReqA (h : SB any c c') (i : N) (t : Nat) (cand : N) (cl : Nat × Nat) :
    RB any (sVoteReqA i c t cand cl) (sVoteReqA i c' t cand cl) := by
  have k := h.map (f := fun x => { x with vcalls := ⟨t, cand, cl, c.term, Cl.askId c⟩ :: x.vcalls })
    (fun _ _ _ _ _ _ _ => rfl) rfl rfl rfl rfl rfl rfl rfl
  unfold sVoteReqA
  by_cases hx : t < c.term
  · rw [if_pos hx, if_pos (h.term ▸ hx), h.term]
    exact ⟨h, rfl⟩
  · rw [if_neg hx, if_neg (h.term ▸ hx), h.askId.1]
    rw [h.term] at k ⊢
    exact ⟨k, rfl⟩

theorem SB.voteCast (h : SB any c c') (f : VFrame N) (ok g : Bool) : SB any (sVoteCast c f ok g) (sVoteCast c' f ok g) := by
  have k : SB any (if c.term < f.reqTerm then sStepDown c f.reqTerm ok else c) (if c.term < f.reqTerm then sStepDown c' f.reqTerm ok else c') := by
    split
    · exact h.stepDown _ _
    · exact h
  unfold sVoteCast
  dsimp only
  rw [h.term]
  generalize (if c.term < f.reqTerm then sStepDown c f.reqTerm ok else c) = c1 at k ⊢
  generalize (if c.term < f.reqTerm then sStepDown c' f.reqTerm ok else c') = c1' at k ⊢
  rw [k.vote]
  have k2 := k.stepDown f.reqTerm ok
  generalize sStepDown c1 f.reqTerm ok = c2 at k2 ⊢
  generalize sStepDown c1' f.reqTerm ok = c2' at k2 ⊢
  split
  · split
    · exact k2.map (f := fun x => { x with vote := some f.cand, pterm := x.term, pvote := some f.cand })
        (fun _ _ _ _ _ _ _ => rfl) rfl rfl rfl rfl rfl rfl rfl
    · exact k2.map (f := fun x => { x with vote := none }) (fun _ _ _ _ _ _ _ => rfl) rfl rfl rfl rfl rfl rfl rfl
  · exact k

theorem SB.voteReqB (h : SB any c c') (i : N) (f : VFrame N) (free ok g : Bool) :
    RB any (sVoteReqB i c f free ok g) (sVoteReqB i c' f free ok g) := by
  have k : SB any ((fun x : Srv N (Option D) => { x with vcalls := x.vcalls.erase f }) c) ((fun x : Srv N (Option D) => { x with vcalls := x.vcalls.erase f }) c') :=
    h.map (f := fun x => { x with vcalls := x.vcalls.erase f }) (fun _ _ _ _ _ _ _ => rfl) rfl rfl rfl rfl rfl rfl rfl
  have e : ∀ y : Srv N (Option D), sVoteReqB i y f free ok g =
      (fun (z : Srv N (Option D)) (st : St) (tm : Nat) =>
        if f.savedTerm ≠ tm then (z, [voteAnswer i z f false false], [])
        else if ¬ free then (z, [voteAnswer i z f (idLe f.lastId f.claim) false], [])
        else (sVoteCast z f ok g, [voteAnswer i (sVoteCast z f ok g) f false (decide (tm < f.reqTerm) && st.leads)], []))
      ((fun x : Srv N (Option D) => { x with vcalls := x.vcalls.erase f }) y) y.state y.term := fun y => rfl
  have va : ∀ {z z' : Srv N (Option D)}, SB any z z' → ∀ a b, voteAnswer i z' f a b = voteAnswer i z f a b := by
    intro z z' hz a b; unfold voteAnswer; rw [hz.term, hz.vote]
  rw [e c, e c', h.state, h.term]
  generalize (fun x : Srv N (Option D) => { x with vcalls := x.vcalls.erase f }) = F at k ⊢
  generalize F c = z at k ⊢
  generalize F c' = z' at k ⊢
  dsimp only
  have k2 := k.voteCast f ok g
  rw [va k, va k, va k2]
  split
  · exact ⟨k, rfl⟩
  · split
    · exact ⟨k, rfl⟩
    · exact ⟨k2, rfl⟩

theorem SB.setCommitted (h : SB any c c') (k : Nat) : SB any (sSetCommitted c k) (sSetCommitted c' k) :=
  h.map (f := fun x => sSetCommitted x k) (fun _ _ _ _ _ _ _ => rfl) rfl rfl rfl rfl rfl rfl rfl

/-- The end of `sAppend`. -/
def appendTail (i : N) (c2 : Srv N (Option D)) (t : Nat) (srv : N) (prev prevTerm : Nat)
    (es : List (Entry N (Option D))) (cm : Nat) (gone : Bool) (ev : List (Ev N (Option D))) : Res N (Option D) :=
  if es ≠ [] ∧ c2.dl.isSome then (c2, [], ev)
  else if (if gone then 0 else termAt c2.log prev) ≠ prevTerm then
    (c2, [.aeRes t srv i false c2.term (prev + es.length) es.length], ev)
  else if es = [] then
    (sSetCommitted c2 (min cm prev), [.aeRes t srv i true c2.term prev 0], ev)
  else if prev + es.length ≤ c2.applied then
    (sSetCommitted c2 (min cm (prev + es.length)),
      [.aeRes t srv i true c2.term (prev + es.length) es.length], ev)
  else
    ({ c2 with
        log := drainJobs c2.log (resolveJobs c2.log prev es),
        queue := c2.queue ++ resolveJobs c2.log prev es ++
          [.follower c2.term (prev + es.length) es.length cm srv] }, [], ev)

theorem SB.appendTail (k : SB any c c') (i : N) (t : Nat) (srv : N) (prev pt : Nat) {es es' : Log N (Option D)} (he : BL any es es')
    (cm : Nat) (gone : Bool) (ev : List (Ev N (Option D))) :
    RB any (appendTail i c t srv prev pt es cm gone ev) (appendTail i c' t srv prev pt es' cm gone ev) := by
  have hne : (es' ≠ [] ∧ c'.dl.isSome = true) ↔ (es ≠ [] ∧ c.dl.isSome = true) := by
    rw [k.dl.isSome]; exact and_congr (not_congr he.nil_iff) Iff.rfl
  have hlast : SB any { c with
        log := drainJobs c.log (resolveJobs c.log prev es),
        queue := c.queue ++ resolveJobs c.log prev es ++ [.follower c.term (prev + es.length) es.length cm srv] }
      { c' with
        log := drainJobs c'.log (resolveJobs c'.log prev es'),
        queue := c'.queue ++ resolveJobs c'.log prev es' ++ [.follower c.term (prev + es.length) es.length cm srv] } := by
    have hq := QB.resolve k.log he prev
    have hd := hq.drain k.log
    cases k with
    | mk h1 h2 h3 h4 h5 h6 h7 =>
      exact .mk (c := { c with
        log := drainJobs c.log (resolveJobs c.log prev es),
        queue := c.queue ++ resolveJobs c.log prev es ++ [.follower c.term (prev + es.length) es.length cm srv] })
        hd h2 ((h3.append hq).append (.cons (.follower _ _ _ _ _) .nil)) h4 h5 h6 h7
  unfold Cl.appendTail
  have e2 : (if gone then 0 else Raft.termAt c'.log prev) = (if gone then 0 else Raft.termAt c.log prev) := by rw [k.log.termAt]
  have e4 : prev + es'.length ≤ c'.applied ↔ prev + es.length ≤ c.applied := by rw [k.applied, he.len]
  rw [e2]
  by_cases b1 : es ≠ [] ∧ c.dl.isSome = true
  · rw [if_pos b1, if_pos (hne.mpr b1)]; exact ⟨k, rfl⟩
  · rw [if_neg b1, if_neg (fun x => b1 (hne.mp x))]
    by_cases b2 : (if gone then 0 else Raft.termAt c.log prev) ≠ pt
    · rw [if_pos b2, if_pos b2, k.term, he.len]; exact ⟨k, rfl⟩
    · rw [if_neg b2, if_neg b2]
      by_cases b3 : es = []
      · rw [if_pos b3, if_pos (he.nil_iff.mpr b3), k.term]; exact ⟨k.setCommitted _, rfl⟩
      · rw [if_neg b3, if_neg (fun x => b3 (he.nil_iff.mp x))]
        by_cases b4 : prev + es.length ≤ c.applied
        · rw [if_pos b4, if_pos (e4.mpr b4), k.term, he.len]; exact ⟨k.setCommitted _, rfl⟩
        · rw [if_neg b4, if_neg (fun x => b4 (e4.mp x))]
          refine ⟨?_, rfl⟩
          rw [he.len]
          rw [k.term] at hlast ⊢
          exact hlast

theorem SB.append (h : SB any c c') (i : N) (t : Nat) (srv : N) (prev pt : Nat) {es es' : Log N (Option D)} (he : BL any es es')
    (cm : Nat) (ok gone : Bool) : RB any (sAppend i c t srv prev pt es cm ok gone) (sAppend i c' t srv prev pt es' cm ok gone) := by
  have kr := h.checkStepDown i t srv ok
  have e : ∀ (y : Srv N (Option D)) es, sAppend i y t srv prev pt es cm ok gone =
      if t < y.term then (y, [.aeRes t srv i false y.term (prev + es.length) es.length], [])
      else (fun (z : Srv N (Option D)) (ev : List (Ev N (Option D))) =>
        if z.leaderId ≠ some srv then
          (sStepDown z (t + 1) ok, [.aeRes t srv i false (t + 1) (prev + es.length) es.length], ev)
        else Cl.appendTail i ((fun x : Srv N (Option D) => { x with lastLeader := some srv }) z) t srv prev pt es cm gone ev)
        (sCheckStepDown i y t srv ok).1 (sCheckStepDown i y t srv ok).2 := fun y es => rfl
  rw [e c, e c', h.term, he.len]
  split
  · exact ⟨h, rfl⟩
  · rw [kr.2]
    have k := kr.1
    generalize (sCheckStepDown i c t srv ok).2 = ev
    generalize (sCheckStepDown i c t srv ok).1 = c1 at k ⊢
    generalize (sCheckStepDown i c' t srv ok).1 = c1' at k ⊢
    have k2 : SB any ((fun x : Srv N (Option D) => { x with lastLeader := some srv }) c1) ((fun x : Srv N (Option D) => { x with lastLeader := some srv }) c1') := k.map (f := fun x => { x with lastLeader := some srv }) (fun _ _ _ _ _ _ _ => rfl) rfl rfl rfl rfl rfl rfl rfl
    generalize (fun x : Srv N (Option D) => { x with lastLeader := some srv }) = F at k2 ⊢
    dsimp only
    rw [k.leaderId]
    split
    · exact ⟨k.stepDown _ _, rfl⟩
    · exact k2.appendTail i t srv prev pt he cm gone ev

theorem SB.install (h : SB any c c') (i : N) (t : Nat) (srv : N) {K K' : Log N (Option D)} (hK : BL any K K') (ok : Bool) :
    RB any (sInstall i c t srv K ok) (sInstall i c' t srv K' ok) := by
  have kr := h.checkStepDown i t srv ok
  unfold sInstall
  dsimp only
  rw [h.term]
  split
  · exact ⟨h, rfl⟩
  · rw [kr.2]
    have k := kr.1
    generalize (sCheckStepDown i c t srv ok).2 = ev
    generalize (sCheckStepDown i c t srv ok).1 = c1 at k ⊢
    generalize (sCheckStepDown i c' t srv ok).1 = c1' at k ⊢
    rw [k.leaderId]
    split
    · exact ⟨k.stepDown _ _, rfl⟩
    · have hx : (c1'.dl = none ∧ c1'.snap.length < K'.length) ↔ (c1.dl = none ∧ c1.snap.length < K.length) := by
        rw [k.snap.len, hK.len]; exact and_congr k.dl.none_iff Iff.rfl
      simp only [hx]
      split
      · refine ⟨?_, rfl⟩
        cases k with
        | mk h1 h2 h3 h4 h5 h6 h7 => exact .mk (c := { c1 with dl := some K }) h1 h2 h3 h4 h5 (.yes hK) h7
      · exact ⟨k, rfl⟩

theorem SB.loaded (h : SB any c c') : SB any (sLoaded c) (sLoaded c') := by
  unfold sLoaded
  dsimp only
  rw [h.log.termAt, h.applied, h.psnap.lastId, h.snap.len, h.psnap.len]
  cases h with
  | mk h1 h2 h3 h4 h5 h6 h7 =>
    split
    · split
      · exact .mk (c := { c with
          dl := none, applied := c.psnap.length, sm := c.psnap, snap := c.psnap, log := Raft.snapMerge c.psnap c.log,
          queue := c.queue ++ [.snap c.psnap] }) (h5.snapMerge h1) h2 (h3.append (.cons (.snap h5) .nil)) h5 h5 .no h5
      · exact .mk (c := { c with dl := none, applied := c.psnap.length, sm := c.psnap }) h1 h2 h3 h4 h5 .no h5
    · exact .mk (c := { c with dl := none }) h1 h2 h3 h4 h5 .no h7

theorem SB.diskStep (h : SB any c c') (i : N) : RB any (sDisk i c) (sDisk i c') := by
  have hq := h.queue
  unfold sDisk
  generalize hc : c.queue = q at hq ⊢
  generalize hc' : c'.queue = q' at hq ⊢
  cases hq with
  | nil => exact ⟨h, rfl⟩
  | @cons j j' q q' hj hq =>
    have k : SB any { c with disk := applyJob c.disk j, queue := q, elects := c.elects.map (fun f => { f with rest := f.rest - 1 }) }
        { c' with disk := applyJob c'.disk j', queue := q', elects := c'.elects.map (fun f => { f with rest := f.rest - 1 }) } := by
      cases h with
      | mk h1 h2 h3 h4 h5 h6 h7 =>
        exact .mk (c := { c with disk := applyJob c.disk j, queue := q, elects := c.elects.map (fun f => { f with rest := f.rest - 1 }) })
          h1 (hj.apply h2) hq h4 h5 h6 h7
    cases hj with
    | push _ => exact ⟨k, rfl⟩
    | snap _ => exact ⟨k, rfl⟩
    | pop => exact ⟨k, rfl⟩
    | follower t u n cm l =>
      dsimp only
      rw [h.term] at k ⊢
      split
      · exact ⟨k, rfl⟩
      · exact ⟨k.setCommitted _, rfl⟩
    | leader f n =>
      exact ⟨k.map (f := fun x => { x with bb := (x.bb.commitAt f (f + n - 1) i).1 }) (fun _ _ _ _ _ _ _ => rfl) rfl rfl rfl rfl rfl rfl rfl, rfl⟩

theorem SB.timeoutNow (h : SB any c c') (c0 : Conf N) (i : N) (t : Nat) (st ok : Bool) :
    SB any (sTimeoutNow c0 i c t st ok) (sTimeoutNow c0 i c' t st ok) := by
  unfold sTimeoutNow
  rw [h.term, h.state]
  split
  · split
    · exact h.stepDown _ _
    · exact h
  · split
    · exact h
    · exact h.electA c0 i st

theorem SB.replSend (h : SB any c c') (to : N) (prev : Nat) : SB any (sReplSend c to prev) (sReplSend c' to prev) := by
  have e : ∀ y : Srv N (Option D), sReplSend y to prev =
      (fun x tm pt cm => { x with repl := .send tm to prev pt cm :: x.repl }) y y.term (termAt y.log prev) y.bb.lastCommitted :=
    fun y => rfl
  rw [e c, e c', h.log.termAt, h.term, h.bb]
  exact h.map (f := fun x => { x with repl := .send c.term to prev (termAt c.log prev) c.bb.lastCommitted :: x.repl })
    (fun _ _ _ _ _ _ _ => rfl) rfl rfl rfl rfl rfl rfl rfl

theorem SB.replRes (h : SB any c c') (who : N) (f u : Nat) : SB any (sReplRes c who f u) (sReplRes c' who f u) :=
  h.map (f := fun x => sReplRes x who f u) (fun _ _ _ _ _ _ _ => rfl) rfl rfl rfl rfl rfl rfl rfl

theorem SB.replAck (h : SB any c c') (f : RFrame N) : SB any (sReplAck c f) (sReplAck c' f) := by
  cases f with
  | send _ _ _ _ _ => exact h
  | ack t w a b =>
    exact h.map (f := fun x => sReplAck x (.ack t w a b)) (fun _ _ _ _ _ _ _ => rfl) rfl rfl rfl rfl rfl rfl rfl

end Braft.Cl
