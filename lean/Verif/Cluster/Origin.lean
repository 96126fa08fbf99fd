import Verif.Cluster.LogNodeAppend
/-
Where the entries in a cluster come from: a predicate of positions and entries that holds for what leaders append holds
for everything that is stored, sent or applied.
-/
set_option linter.unusedVariables false
set_option linter.unusedSimpArgs false
set_option linter.unusedSectionVars false

namespace Braft.Cl.Og
open Braft.Raft Braft.Cl
variable {N D : Type} [DecidableEq N] [DecidableEq D] {P : Nat → Entry N D → Prop}

/-- `P` holds of the entries of a log. -/
def LP (P : Nat → Entry N D → Prop) (l : Log N D) : Prop := ∀ k e, l[k]? = some e → P k e

/-- It holds of the log on disk after each of the queued steps. -/
def DP (P : Nat → Entry N D → Prop) (l : Log N D) (q : List (Job N D)) : Prop := ∀ m, LP P (drainJobs l (q.take m))

theorem LP.nil : LP P ([] : Log N D) := by intro k e h; simp at h

theorem LP.pre {l l' : Log N D} (h : LP P l) (hp : l' <+: l) : LP P l' := by
  obtain ⟨t, rfl⟩ := hp
  intro k e hk
  refine h k e ?_
  have : k < l'.length := by
    obtain ⟨h, _⟩ := List.getElem?_eq_some_iff.mp hk; exact h
  rw [List.getElem?_append_left this]; exact hk

theorem LP.take {l : Log N D} (h : LP P l) (n : Nat) : LP P (l.take n) := h.pre (List.take_prefix _ _)

theorem LP.append {l es : Log N D} (h : LP P l) (he : ∀ k e, es[k]? = some e → P (l.length + k) e) : LP P (l ++ es) := by
  intro k e hk
  by_cases hl : k < l.length
  · rw [List.getElem?_append_left hl] at hk; exact h k e hk
  · rw [List.getElem?_append_right (by omega)] at hk
    have := he _ _ hk
    rwa [show l.length + (k - l.length) = k by omega] at this

theorem LP.merge {K l : Log N D} (hK : LP P K) (hl : LP P l) : LP P (snapMerge K l) := by
  unfold snapMerge
  split
  · exact hl
  · exact hK

theorem DP.nil {l : Log N D} (h : LP P l) : DP P l [] := by intro m; rw [List.take_nil]; exact h

theorem DP.cons {l : Log N D} {j : Job N D} {q : List (Job N D)} (h : LP P l) (hq : DP P (applyJob l j) q) : DP P l (j :: q) := by
  intro m
  cases m with
  | zero => exact h
  | succ m => exact hq m

theorem DP.tail {l : Log N D} {j : Job N D} {q : List (Job N D)} (h : DP P l (j :: q)) : DP P (applyJob l j) q :=
  fun m => h (m + 1)

theorem DP.head {l : Log N D} {q : List (Job N D)} (h : DP P l q) : LP P l := h 0

theorem DP.append {l : Log N D} {q q' : List (Job N D)} (h : DP P l q) (h' : DP P (drainJobs l q) q') : DP P l (q ++ q') := by
  induction q generalizing l with
  | nil => exact h'
  | cons j q ih => exact .cons h.head (ih h.tail h')

theorem DP.pushes {l es : Log N D} {j : Job N D} (hj : ∀ l, applyJob l j = l) (h : LP P l)
    (he : ∀ k e, es[k]? = some e → P (l.length + k) e) : DP P l (es.map .push ++ [j]) := by
  induction es generalizing l with
  | nil => exact .cons h (.nil (by rw [hj]; exact h))
  | cons e es ih =>
    refine .cons h (ih ?_ ?_)
    · exact h.append (fun k x hk => by
        cases k with
        | zero => simp at hk; subst hk; exact he 0 e rfl
        | succ k => simp at hk)
    · intro k x hk
      have := he (k + 1) x hk
      rw [show (applyJob l (.push e)).length = l.length + 1 by simp [applyJob]]
      rwa [show l.length + 1 + k = l.length + (k + 1) by omega]

theorem DP.pops {l : Log N D} {q : List (Job N D)} (n : Nat) (h : LP P l) (hq : DP P (l.take (l.length - n)) q) :
    DP P l (List.replicate n .pop ++ q) := by
  induction n generalizing l with
  | zero => rw [Nat.sub_zero, List.take_length] at hq; exact hq
  | succ n ih =>
    rw [List.replicate_succ, List.cons_append]
    refine .cons h (ih ?_ ?_)
    · show LP P l.dropLast
      rw [List.dropLast_eq_take]; exact h.take _
    · have e : l.dropLast.take (l.dropLast.length - n) = l.take (l.length - (n + 1)) := by
        rw [List.length_dropLast, List.dropLast_eq_take, List.take_take]
        congr 1; omega
      show DP P (l.dropLast.take (l.dropLast.length - n)) q
      rw [e]; exact hq

/-- Entries from a leader. -/
theorem DP.resolve {l es : Log N D} {prev : Nat} {j : Job N D} (hj : ∀ l, applyJob l j = l) (h : LP P l) (hp : prev ≤ l.length)
    (he : ∀ k e, es[k]? = some e → P (prev + k) e) : DP P l (resolveJobs l prev es ++ [j]) := by
  have hk := matchLen_le (l.drop prev) es
  rw [List.length_drop] at hk
  unfold resolveJobs
  dsimp only
  generalize matchLen (l.drop prev) es = k at hk ⊢
  have he' : ∀ x e, (es.drop k)[x]? = some e → P (prev + k + x) e := by
    intro x e hx
    rw [List.getElem?_drop] at hx
    have := he _ _ hx
    rwa [← Nat.add_assoc] at this
  rw [List.append_assoc]
  by_cases h1 : k < es.length ∧ prev + k < l.length
  · rw [if_pos h1]
    refine DP.pops _ h (DP.pushes hj (h.take _) ?_)
    intro x e hx
    rw [List.length_take, show min (l.length - (l.length - (prev + k))) l.length = prev + k by omega]
    exact he' x e hx
  · rw [if_neg h1]
    refine DP.pushes hj h ?_
    intro x e hx
    have : x + k < es.length := by
      rw [List.getElem?_drop] at hx
      obtain ⟨hx, _⟩ := List.getElem?_eq_some_iff.mp hx
      omega
    have hl : l.length = prev + k := by
      have : ¬ prev + k < l.length := fun hc => h1 ⟨by omega, hc⟩
      omega
    rw [hl]; exact he' x e hx

/-- What a node stores. -/
structure PN (P : Nat → Entry N D → Prop) (c : Srv N D) : Prop where
  log : LP P c.log
  dr : DP P c.disk c.queue
  psnap : LP P c.psnap
  dl : ∀ K, c.dl = some K → LP P K

/-- A message. -/
def PM (P : Nat → Entry N D → Prop) : CMsg N D → Prop
  | .aeReq _ _ _ prev _ es _ => ∀ k e, es[k]? = some e → P (prev + k) e
  | .isReq _ _ _ K => LP P K
  | _ => True

/-- An event. -/
def PE (P : Nat → Entry N D → Prop) : Ev N D → Prop
  | .applied _ n e => 0 < n ∧ P (n - 1) e
  | _ => True

structure PI (P : Nat → Entry N D → Prop) (s : CSys N D) : Prop where
  node : ∀ i, PN P (s.node i)
  msg : ∀ m ∈ s.msgs, PM P m
  ev : ∀ e ∈ s.ev, PE P e

theorem PI.mono {Q : Nat → Entry N D → Prop} {s : CSys N D} (h : PI P s) (hq : ∀ k e, P k e → Q k e) : PI Q s := by
  have hl : ∀ l : Log N D, LP P l → LP Q l := fun l h k e hk => hq _ _ (h k e hk)
  refine ⟨fun i => ⟨hl _ (h.node i).log, fun m => hl _ ((h.node i).dr m), hl _ (h.node i).psnap,
    fun K hK => hl _ ((h.node i).dl K hK)⟩, fun m hm => ?_, fun e he => ?_⟩
  · have := h.msg m hm
    cases m <;> try trivial
    · exact fun k e hk => hq _ _ (this k e hk)
    · exact hl _ this
  · have := h.ev e he
    cases e <;> try trivial
    exact ⟨this.1, hq _ _ this.2⟩

/-- Results of handlers. -/
structure PR (P : Nat → Entry N D → Prop) (r : Res N D) : Prop where
  node : PN P r.1
  msg : ∀ m ∈ r.2.1, PM P m
  ev : ∀ e ∈ r.2.2, PE P e

theorem PN.keep {c c' : Srv N D} (h : PN P c) (h1 : c'.log = c.log) (h2 : c'.disk = c.disk) (h3 : c'.queue = c.queue)
    (h4 : c'.psnap = c.psnap) (h5 : c'.dl = c.dl) : PN P c' :=
  ⟨by rw [h1]; exact h.log, by rw [h2, h3]; exact h.dr, by rw [h4]; exact h.psnap, by rw [h5]; exact h.dl⟩

theorem PN.restart {c : Srv N D} (h : PN P c) : PN P (restartSrv c) := by
  refine ⟨h.psnap.merge h.dr.head, ?_, h.psnap, fun K hK => by cases hK⟩
  show DP P c.disk (loadJobs c.psnap)
  unfold loadJobs
  split
  · exact .nil h.dr.head
  · exact .cons h.dr.head (.nil (h.psnap.merge h.dr.head))

theorem PN.appendOwn {c : Srv N D} (h : PN P c) (f : drainJobs c.disk c.queue = c.log) (cf : Conf N) {es : Log N D}
    (he : ∀ k e, es[k]? = some e → P (c.log.length + k) e) : PN P (sAppendOwn c cf es) := by
  refine ⟨h.log.append he, ?_, h.psnap, h.dl⟩
  show DP P c.disk (c.queue ++ es.map .push ++ [.leader (c.log.length + 1) es.length])
  rw [List.append_assoc]
  refine h.dr.append ?_
  rw [f]
  exact DP.pushes (fun _ => rfl) h.log he

variable {p : CParams} {c0 : Conf N}

theorem PR.becomeLeader {c : Srv N D} (h : PN P c) (f : drainJobs c.disk c.queue = c.log)
    (hc : ∀ k e, e.conf? ≠ none → P k e) (i : N) : PR P (sBecomeLeader p c0 i c) := by
  unfold sBecomeLeader
  dsimp only
  split
  · exact ⟨h.restart, fun m hm => absurd hm List.not_mem_nil, fun m hm => absurd hm List.not_mem_nil⟩
  · refine ⟨?_, fun m hm => absurd hm List.not_mem_nil, ?_⟩
    · refine PN.appendOwn (c := { c with
        ctx := c.ctx.reset,
        state := .leader,
        leaderId := some i,
        lastLeader := none,
        bb := c.bb.resetPendingIndex (c.log.length + 1) }) (h.keep rfl rfl rfl rfl rfl) f _ ?_
      intro k e hk
      cases k with
      | zero =>
        have hk := Option.some.inj hk
        subst hk
        exact hc _ _ (by intro h; cases h)
      | succ k => simp at hk
    · intro e he
      rw [List.mem_singleton] at he; subst he; trivial

theorem PR.grantSelf {c : Srv N D} (h : PN P c) (f : drainJobs c.disk c.queue = c.log)
    (hc : ∀ k e, e.conf? ≠ none → P k e) (i : N) (free : Bool) : PR P (sGrantSelf p c0 i c free) := by
  unfold sGrantSelf
  dsimp only
  split
  · split
    · exact PR.becomeLeader (c := { c with ctx := { c.ctx with ballot := c.ctx.ballot.grant i } }) (h.keep rfl rfl rfl rfl rfl) f hc i
    · exact ⟨h.keep rfl rfl rfl rfl rfl, fun m hm => absurd hm List.not_mem_nil, fun m hm => absurd hm List.not_mem_nil⟩
  · exact ⟨h.keep rfl rfl rfl rfl rfl, fun m hm => absurd hm List.not_mem_nil, fun m hm => absurd hm List.not_mem_nil⟩

theorem pm_requests (i : N) (c : Srv N D) (ps : List N) : ∀ m ∈ (sRequestPeers i c ps).2, PM P m := by
  intro m hm
  obtain ⟨x, _, rfl⟩ := List.mem_map.mp hm
  trivial

theorem PR.only {c : Srv N D} (h : PN P c) : PR P (c, [], []) :=
  ⟨h, fun m hm => absurd hm List.not_mem_nil, fun m hm => absurd hm List.not_mem_nil⟩

theorem PR.voteRes {c : Srv N D} (h : PN P c) (f : drainJobs c.disk c.queue = c.log) (hc : ∀ k e, e.conf? ≠ none → P k e)
    (i : N) (r : Rpc N) (g rj d : Bool) (rt pt : Nat) (ok : Bool) : PR P (sVoteRes p c0 i c r g rj d rt pt ok) := by
  unfold sVoteRes
  dsimp only
  generalize (if d = true then { c.ctx with disrupted := some (some r.peer, pt) } else c.ctx) = x1
  generalize (if g = true ∧ some r.peer = c.lastLeader then
    (if g = true then x1.ballot.grant r.peer else x1.ballot).grant i else
    (if g = true then x1.ballot.grant r.peer else x1.ballot)) = b2
  generalize (if g = true then x1.reserved else r.peer :: x1.reserved) = rs
  by_cases b1 : r.version ≠ c.ctx.version
  · rw [if_pos b1]; exact .only (h.keep rfl rfl rfl rfl rfl)
  rw [if_neg b1]
  by_cases b2 : c.state ≠ .candidate
  · rw [if_pos b2]; exact .only (h.keep rfl rfl rfl rfl rfl)
  rw [if_neg b2]
  by_cases b3 : r.term ≠ c.term
  · rw [if_pos b3]; exact .only (h.keep rfl rfl rfl rfl rfl)
  rw [if_neg b3]
  by_cases b4 : c.term < rt
  · rw [if_pos b4]; exact .only (h.keep rfl rfl rfl rfl rfl)
  rw [if_neg b4]
  by_cases b5 : ¬ g = true ∧ ¬ rj = true
  · rw [if_pos b5]; exact .only (h.keep rfl rfl rfl rfl rfl)
  rw [if_neg b5]
  split
  · exact PR.becomeLeader (h.keep (c' := { c with rpcs := c.rpcs.erase r, ctx := _ }) rfl rfl rfl rfl rfl) f hc i
  split
  · exact .only (h.keep rfl rfl rfl rfl rfl)
  · exact ⟨h.keep rfl rfl rfl rfl rfl, pm_requests i _ _, fun m hm => absurd hm List.not_mem_nil⟩

theorem PN.checkStepDown {c : Srv N D} (h : PN P c) (i : N) (t : Nat) (srv : N) (ok : Bool) :
    PN P (sCheckStepDown i c t srv ok).1 ∧ (∀ e ∈ (sCheckStepDown i c t srv ok).2, PE P e) ∧
    (sCheckStepDown i c t srv ok).1.log = c.log ∧ (sCheckStepDown i c t srv ok).1.disk = c.disk ∧
    (sCheckStepDown i c t srv ok).1.queue = c.queue := by
  unfold sCheckStepDown
  dsimp only
  split <;> split
  all_goals refine ⟨h.keep rfl rfl rfl rfl rfl, ?_, rfl, rfl, rfl⟩
  all_goals intro e he
  all_goals first | exact absurd he List.not_mem_nil | (rw [List.mem_singleton] at he; subst he; trivial)

theorem PR.append {c : Srv N D} (h : PN P c) (f : drainJobs c.disk c.queue = c.log) (i : N) (t : Nat) (srv : N) (prev pt : Nat)
    {es : Log N D} (he : ∀ k e, es[k]? = some e → P (prev + k) e) (cm : Nat) (ok gone : Bool) (hpt : 0 < prev → 1 ≤ pt) :
    PR P (sAppend i c t srv prev pt es cm ok gone) := by
  have one : ∀ {t u : Nat} {a b : N} {x : Bool} {m n : Nat}, ∀ z ∈ [(CMsg.aeRes t a b x u m n : CMsg N D)], PM P z := by
    intro t u a b x m n z hz
    rw [List.mem_singleton] at hz; subst hz; trivial
  obtain ⟨k1, k2, k3, k4, k5⟩ := h.checkStepDown i t srv ok
  unfold sAppend
  by_cases b0 : t < c.term
  · rw [if_pos b0]; exact ⟨h, one, fun m hm => absurd hm List.not_mem_nil⟩
  rw [if_neg b0]
  dsimp only
  generalize sCheckStepDown i c t srv ok = r at k1 k2 k3 k4 k5 ⊢
  by_cases b1 : r.1.leaderId ≠ some srv
  · rw [if_pos b1]; exact ⟨k1.keep rfl rfl rfl rfl rfl, one, k2⟩
  rw [if_neg b1]
  by_cases b2 : es ≠ [] ∧ r.1.dl.isSome = true
  · rw [if_pos b2]; exact ⟨k1.keep rfl rfl rfl rfl rfl, fun m hm => absurd hm List.not_mem_nil, k2⟩
  rw [if_neg b2]
  by_cases b3 : (if gone = true then 0 else termAt r.1.log prev) ≠ pt
  · rw [if_pos b3]; exact ⟨k1.keep rfl rfl rfl rfl rfl, one, k2⟩
  rw [if_neg b3]
  by_cases b4 : es = []
  · rw [if_pos b4]; exact ⟨k1.keep rfl rfl rfl rfl rfl, one, k2⟩
  rw [if_neg b4]
  by_cases b5 : prev + es.length ≤ r.1.applied
  · rw [if_pos b5]; exact ⟨k1.keep rfl rfl rfl rfl rfl, one, k2⟩
  rw [if_neg b5]
  have hprev : prev ≤ r.1.log.length := by
    apply Decidable.byContradiction
    intro hc
    have b3 := Decidable.not_not.mp b3
    rw [termAt_beyond (by omega), ite_self] at b3
    have := hpt (by omega)
    omega
  have hres := DP.resolve (j := .follower r.1.term (prev + es.length) es.length cm srv) (fun _ => rfl) k1.log hprev he
  refine ⟨⟨?_, ?_, k1.psnap, k1.dl⟩, fun m hm => absurd hm List.not_mem_nil, k2⟩
  · have := hres (resolveJobs r.1.log prev es).length
    rw [List.take_append_of_le_length (Nat.le_refl _), List.take_length] at this
    exact this
  · show DP P r.1.disk (r.1.queue ++ resolveJobs r.1.log prev es ++ _)
    rw [List.append_assoc]
    refine k1.dr.append ?_
    rw [k4, k5, f, ← k3]
    exact hres

theorem PR.install {c : Srv N D} (h : PN P c) (i : N) (t : Nat) (srv : N) {K : Log N D} (hK : LP P K) (ok : Bool) :
    PR P (sInstall i c t srv K ok) := by
  obtain ⟨k1, k2, k3, k4, k5⟩ := h.checkStepDown i t srv ok
  unfold sInstall
  by_cases b0 : t < c.term
  · rw [if_pos b0]; exact .only h
  rw [if_neg b0]
  dsimp only
  generalize sCheckStepDown i c t srv ok = r at k1 k2 k3 k4 k5 ⊢
  by_cases b1 : r.1.leaderId ≠ some srv
  · rw [if_pos b1]; exact ⟨k1.keep rfl rfl rfl rfl rfl, fun m hm => absurd hm List.not_mem_nil, k2⟩
  rw [if_neg b1]
  split
  · exact ⟨⟨k1.log, k1.dr, k1.psnap, fun K' hK' => by cases hK'; exact hK⟩, fun m hm => absurd hm List.not_mem_nil, k2⟩
  · exact ⟨k1, fun m hm => absurd hm List.not_mem_nil, k2⟩

theorem PR.disk {c : Srv N D} (h : PN P c) (i : N) : PR P (sDisk i c) := by
  unfold sDisk
  split
  · exact .only h
  · rename_i j q hq
    have hd : DP P c.disk (j :: q) := by rw [← hq]; exact h.dr
    have one : ∀ {t u : Nat} {a b : N} {x : Bool} {m n : Nat}, ∀ z ∈ [(CMsg.aeRes t a b x u m n : CMsg N D)], PM P z := by
      intro t u a b x m n z hz
      rw [List.mem_singleton] at hz; subst hz; trivial
    have hn : PN P { c with
        disk := applyJob c.disk j, queue := q, elects := c.elects.map (fun f => { f with rest := f.rest - 1 }) } :=
      ⟨h.log, hd.tail, h.psnap, h.dl⟩
    dsimp only
    split
    · exact .only hn
    · exact .only hn
    · exact .only hn
    · split
      · exact ⟨hn, one, fun m hm => absurd hm List.not_mem_nil⟩
      · exact ⟨hn.keep rfl rfl rfl rfl rfl, one, fun m hm => absurd hm List.not_mem_nil⟩
    · exact .only (hn.keep rfl rfl rfl rfl rfl)

/-- One step: whatever a leader appends for `apply` satisfies `P`, and configurations do. -/
theorem pi_step {s s' : CSys N D} {a : CAct N D} (hf : (∀ i, SF (s.node i)) ∧ MF s.msgs) (h : PI P s)
    (ha : cstep p c0 s a = some s') (hc : ∀ k e, e.conf? ≠ none → P k e)
    (hap : ∀ i ds, a = .apply i ds → ∀ m d, ds[m]? = some d → P ((s.node i).log.length + m) ⟨(s.node i).term, .data d⟩) :
    PI P s' := by
  unfold cstep at ha
  split at ha
  · rename_i hpre
    replace ha := Option.some.inj ha
    have hn := h.node a.at
    have hS := hf.1 a.at
    have key : PR P (ceff p c0 (s.node a.at) a) := by
      cases a <;> dsimp only [CAct.at] at hn hS ⊢
      case elect i =>
        refine .only ?_
        unfold sElectA
        split
        · exact hn
        · exact hn.keep rfl rfl rfl rfl rfl
      case timeoutNow i t st ok =>
        refine .only ?_
        unfold sTimeoutNow sElectA
        repeat' split
        all_goals first | exact hn | exact hn.keep rfl rfl rfl rfl rfl
      case electB i f ok free =>
        show PR P (sElectB p c0 i (s.node i) f ok free)
        unfold sElectB
        dsimp only
        split
        · exact .only (hn.keep rfl rfl rfl rfl rfl)
        · split
          · have hg : PR P (sGrantSelf p c0 i { (sElectAsk c0 i (s.node i) f).1 with
                pterm := (sElectAsk c0 i (s.node i) f).1.term, pvote := some i } free) :=
              by
                refine PR.grantSelf ?_ ?_ hc i free
                · exact hn.keep rfl rfl rfl rfl rfl
                · exact hS.mem
            refine ⟨hg.node, fun m hm => ?_, hg.ev⟩
            rcases List.mem_append.mp hm with hm | hm
            · exact hg.msg m hm
            · exact pm_requests i _ _ m hm
          · exact ⟨hn.keep rfl rfl rfl rfl rfl, pm_requests i _ _, fun m hm => absurd hm List.not_mem_nil⟩
      case electDie i f => exact ⟨hn.restart, pm_requests i _ _, fun m hm => absurd hm List.not_mem_nil⟩
      case timer i v free =>
        show PR P (sTimer p c0 i (s.node i) v free)
        unfold sTimer
        dsimp only
        split
        · exact .only (hn.keep rfl rfl rfl rfl rfl)
        · refine PR.grantSelf ?_ ?_ hc i free
          · exact hn.keep rfl rfl rfl rfl rfl
          · exact hS.mem
      case voteRes i r g rj d rt pt ok => exact PR.voteRes hn hS.mem hc i r g rj d rt pt ok
      case voteReq i t cand claim dis =>
        show PR P (sVoteReqA i (s.node i) t cand claim)
        unfold sVoteReqA
        split
        · refine ⟨hn, fun m hm => ?_, fun m hm => absurd hm List.not_mem_nil⟩
          rw [List.mem_singleton] at hm; subst hm; trivial
        · exact .only (hn.keep rfl rfl rfl rfl rfl)
      case voteReqB i f free ok g =>
        have hcst : ∀ c : Srv N D, PN P c → PN P (sVoteCast c f ok g) := by
          intro c hc
          unfold sVoteCast
          dsimp only
          repeat' split
          all_goals first | exact hc | exact hc.keep rfl rfl rfl rfl rfl
        show PR P (sVoteReqB i (s.node i) f free ok g)
        unfold sVoteReqB
        dsimp only
        split
        · refine ⟨hn.keep rfl rfl rfl rfl rfl, fun m hm => ?_, fun m hm => absurd hm List.not_mem_nil⟩
          rw [List.mem_singleton] at hm; subst hm; trivial
        · split
          · refine ⟨hn.keep rfl rfl rfl rfl rfl, fun m hm => ?_, fun m hm => absurd hm List.not_mem_nil⟩
            rw [List.mem_singleton] at hm; subst hm; trivial
          · refine ⟨hcst _ (hn.keep rfl rfl rfl rfl rfl), fun m hm => ?_, fun m hm => absurd hm List.not_mem_nil⟩
            rw [List.mem_singleton] at hm; subst hm; trivial
      case stepDown i t ok => exact .only (hn.keep rfl rfl rfl rfl rfl)
      case transfer i => exact .only (hn.keep rfl rfl rfl rfl rfl)
      case transferTimeout i => exact .only (hn.keep rfl rfl rfl rfl rfl)
      case apply i ds =>
        refine .only (hn.appendOwn hS.mem _ ?_)
        intro k e hk
        rw [List.getElem?_map] at hk
        cases hd : ds[k]? with
        | none => rw [hd] at hk; cases hk
        | some d =>
          rw [hd] at hk
          have hk := Option.some.inj hk
          subst hk
          exact hap i ds rfl k d hd
      case changeConf i cf =>
        refine .only (hn.appendOwn hS.mem _ ?_)
        intro k e hk
        cases k with
        | zero =>
          have hk := Option.some.inj hk
          subst hk
          exact hc _ _ (by intro h; cases h)
        | succ k => simp at hk
      case replSend i to prev => exact .only (hn.keep rfl rfl rfl rfl rfl)
      case replRead i f cnt =>
        cases f with
        | ack => exact .only hn
        | send t to prev pt cm =>
          refine ⟨hn.keep rfl rfl rfl rfl rfl, fun m hm => ?_, fun m hm => absurd hm List.not_mem_nil⟩
          have hm := List.mem_singleton.mp hm
          subst hm
          intro k e hk
          rw [List.getElem?_take] at hk
          split at hk
          · rw [List.getElem?_drop] at hk; exact hn.log _ _ hk
          · cases hk
      case replRes i who f up n => exact .only (hn.keep rfl rfl rfl rfl rfl)
      case replAck i f =>
        refine .only ?_
        unfold sReplAck
        split
        · exact hn.keep rfl rfl rfl rfl rfl
        · exact hn
      case append i t srv prev pt es cm ok gone =>
        unfold cpre at hpre; dsimp only at hpre
        rw [Bool.and_eq_true, decide_eq_true_eq] at hpre
        exact PR.append hn hS.mem i t srv prev pt (h.msg _ hpre.1) cm ok gone (hf.2 _ _ _ _ _ _ _ hpre.1).2.1
      case sendIS i to =>
        refine ⟨hn, fun m hm => ?_, fun m hm => absurd hm List.not_mem_nil⟩
        have hm := List.mem_singleton.mp hm
        subst hm
        exact hn.psnap
      case install i t srv K ok =>
        unfold cpre at hpre; dsimp only at hpre
        rw [decide_eq_true_eq] at hpre
        exact PR.install hn i t srv (h.msg _ hpre) ok
      case disk i => exact PR.disk hn i
      case fsm i =>
        refine ⟨hn.keep rfl rfl rfl rfl rfl, fun m hm => absurd hm List.not_mem_nil, fun e he => ?_⟩
        have he : e ∈ (sApply i (s.node i)).2.2 := he
        unfold sApply at he
        dsimp only at he
        cases hl : (s.node i).log[(s.node i).applied]? with
        | none => rw [hl] at he; cases he
        | some x =>
          rw [hl] at he
          dsimp only at he
          rw [List.mem_singleton] at he
          subst he
          exact ⟨Nat.succ_pos _, hn.log _ _ hl⟩
      case saveSnap i k =>
        refine .only ⟨hn.log, hn.dr, ?_, hn.dl⟩
        show LP P ((s.node i).sm.take k)
        rw [hS.sm]
        exact (hn.log.take _).take _
      case copied i =>
        refine .only ⟨hn.log, hn.dr, ?_, hn.dl⟩
        show LP P ((s.node i).dl.getD (s.node i).psnap)
        cases hd : (s.node i).dl with
        | none => exact hn.psnap
        | some K => exact hn.dl K hd
      case loaded i =>
        refine .only ?_
        unfold sLoaded
        dsimp only
        split
        · split
          · refine ⟨hn.psnap.merge hn.log, ?_, hn.psnap, fun K hK => by cases hK⟩
            show DP P (s.node i).disk ((s.node i).queue ++ [.snap (s.node i).psnap])
            refine hn.dr.append ?_
            rw [hS.mem]
            exact .cons hn.log (.nil (hn.psnap.merge hn.log))
          · exact ⟨hn.log, hn.dr, hn.psnap, fun K hK => by cases hK⟩
        · exact ⟨hn.log, hn.dr, hn.psnap, fun K hK => by cases hK⟩
      case dlDrop i => exact .only ⟨hn.log, hn.dr, hn.psnap, fun K hK => by cases hK⟩
      case crash i => exact .only hn.restart
    rw [← ha]
    refine ⟨fun i => ?_, fun m hm => ?_, fun e he => ?_⟩
    · dsimp only [updF]
      by_cases hi : i = a.at
      · subst hi; simp only [if_true]; exact key.node
      · simp only [hi, if_false]; exact h.node i
    · rcases List.mem_append.mp hm with hm | hm
      · exact key.msg m hm
      · exact h.msg m hm
    · rcases List.mem_append.mp he with he | he
      · exact key.ev e he
      · exact h.ev e he
  · cases ha

theorem pi_init : PI P (initC : CSys N D) := by
  refine ⟨fun i => ⟨.nil, ?_, .nil, fun K hK => by cases hK⟩, fun m hm => absurd hm List.not_mem_nil,
    fun m hm => absurd hm List.not_mem_nil⟩
  exact DP.nil (N := N) (D := D) .nil

end Braft.Cl.Og
