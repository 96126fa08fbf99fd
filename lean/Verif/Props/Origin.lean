import Verif.Cluster.Origin
import Verif.Props.Cluster
/-
C84: what state machines get was submitted, once for each time it was submitted, and in order. Theorems about the cluster
of servers (Verif/Cluster/Server.lean).

Specification vocabulary: `Braft.Cl.Traces.runC p c0 initC acts = some s` says that `acts` is a possible history of a
group and `s` the state it ends in. `Submitted` says which task of which `Node::apply` batch of the history a leader
accepted, and where in its log it put it.
-/
set_option linter.unusedVariables false
set_option linter.unusedSimpArgs false
set_option linter.unusedSectionVars false

namespace Braft.Props.Origin
open Braft.Raft Braft.Cl Braft.Cl.Og Braft.Cl.Traces Braft.Props.Cluster

section Spec
variable {N D : Type} [DecidableEq N] [DecidableEq D]

/-- In the history `acts` action number `q` is a batch of tasks given to node `j`, of which task `m` has data `d`; `j`
leads term `t` at that moment, and the task gets the next free log index, counted within the batch: `k`. -/
def Submitted (p : CParams) (c0 : Conf N) (acts : List (CAct N D)) (q m : Nat) (j : N) (t : Nat) (d : D) (k : Nat) : Prop :=
  ∃ ds s0, acts[q]? = some (.apply j ds) ∧ ds[m]? = some d ∧ runC p c0 initC (acts.take q) = some s0 ∧ LeadsC s0 j t ∧
    k = (s0.node j).log.length + m + 1

/-- `d` occurs in the batches of the history at one place at most. -/
def Once (acts : List (CAct N D)) (d : D) : Prop :=
  ∀ (q q' : Nat) (j j' : N) (ds ds' : List D) (m m' : Nat), acts[q]? = some (.apply j ds) → acts[q']? = some (.apply j' ds') → ds[m]? = some d →
    ds'[m']? = some d → q = q' ∧ m = m'
end Spec

variable {N D : Type} [DecidableEq N] [DecidableEq D] {c0 : Conf N} {p : CParams}

theorem runC_append (s : CSys N D) (a b : List (CAct N D)) :
    runC p c0 s (a ++ b) = (runC p c0 s a).bind (fun s' => runC p c0 s' b) := by
  induction a generalizing s with
  | nil => rfl
  | cons x a ih =>
    rw [List.cons_append, runC, runC]
    cases cstep p c0 s x with
    | none => rfl
    | some s' => exact ih s'

theorem runC_snoc {s s' : CSys N D} {a : List (CAct N D)} {x : CAct N D} (h : runC p c0 s (a ++ [x]) = some s') :
    ∃ s1, runC p c0 s a = some s1 ∧ cstep p c0 s1 x = some s' := by
  rw [runC_append] at h
  cases h1 : runC p c0 s a with
  | none => rw [h1] at h; cases h
  | some s1 =>
    refine ⟨s1, rfl, ?_⟩
    rw [h1] at h
    have h : runC p c0 s1 [x] = some s' := h
    unfold runC at h
    cases h2 : cstep p c0 s1 x with
    | none => rw [h2] at h; cases h
    | some s2 => rw [h2] at h; exact h

/-- The state before an action, and the one after it. -/
theorem runC_at {s : CSys N D} {acts : List (CAct N D)} {q : Nat} {x : CAct N D} {s0 : CSys N D}
    (h : runC p c0 initC acts = some s) (hq : acts[q]? = some x) (h0 : runC p c0 initC (acts.take q) = some s0) :
    ∃ s1, cstep p c0 s0 x = some s1 ∧ runC p c0 initC (acts.take (q + 1)) = some s1 ∧
      runC p c0 s1 (acts.drop (q + 1)) = some s := by
  have hl : q < acts.length := (List.getElem?_eq_some_iff.mp hq).1
  have e : acts.take (q + 1) = acts.take q ++ [x] := by
    rw [List.take_add_one, hq]; rfl
  have h' := h
  rw [← List.take_append_drop (q + 1) acts, runC_append] at h'
  cases h1 : runC p c0 initC (acts.take (q + 1)) with
  | none => rw [h1] at h'; cases h'
  | some s1 =>
    rw [h1] at h'
    refine ⟨s1, ?_, rfl, h'⟩
    rw [e] at h1
    obtain ⟨s2, a1, a2⟩ := runC_snoc h1
    rw [h0] at a1
    cases a1
    exact a2

/-- What a data entry at an index has to come from. -/
def Came (p : CParams) (c0 : Conf N) (acts : List (CAct N D)) (n : Nat) (e : Entry N D) : Prop :=
  ∀ d, e.payload = .data d → ∃ q m j, Submitted p c0 acts q m j e.term d (n + 1)

theorem submitted_mono {acts : List (CAct N D)} {x : CAct N D} {q m : Nat} {j : N} {t : Nat} {d : D} {k : Nat}
    (h : Submitted p c0 acts q m j t d k) : Submitted p c0 (acts ++ [x]) q m j t d k := by
  obtain ⟨ds, s0, h1, h2, h3, h4, h5⟩ := h
  have hl : q < acts.length := (List.getElem?_eq_some_iff.mp h1).1
  refine ⟨ds, s0, ?_, h2, ?_, h4, h5⟩
  · rw [List.getElem?_append_left hl]; exact h1
  · rw [List.take_append_of_le_length (by omega)]; exact h3

theorem origin_inv (hp : COk p) (acts : List (CAct N D)) {s : CSys N D} (h : runC p c0 initC acts = some s) :
    PI (Came p c0 acts) s := by
  suffices ∀ n (acts : List (CAct N D)), acts.length = n → ∀ s, runC p c0 initC acts = some s → PI (Came p c0 acts) s from
    this _ acts rfl s h
  intro n
  induction n with
  | zero =>
    intro acts hl s h
    have : acts = [] := List.length_eq_zero_iff.mp hl
    subst this
    cases h
    exact pi_init
  | succ n ih =>
    intro acts hl s h
    have hne : acts ≠ [] := by intro hc; rw [hc] at hl; simp at hl
    have hd := List.dropLast_concat_getLast hne
    generalize acts.getLast hne = x at hd
    generalize hb : acts.dropLast = b at hd
    subst hd
    have hbl : b.length = n := by rw [List.length_append] at hl; simp at hl; exact hl
    obtain ⟨s1, h1, h2⟩ := runC_snoc h
    have hs1 : CReachable p c0 s1 := csteps_of_run _ h1
    refine pi_step (facts_reach hp hs1) ((ih b hbl s1 h1).mono ?_) h2 ?_ ?_
    · intro k e he d hd
      obtain ⟨q, m, j, hs⟩ := he d hd
      exact ⟨q, m, j, submitted_mono hs⟩
    · intro k e he d hd
      refine absurd ?_ he
      unfold Entry.conf?
      rw [hd]
    · intro i ds hx m d hm d' hd'
      cases hd'
      subst hx
      have hpre : (s1.node i).state = .leader := by
        unfold cstep at h2
        split at h2
        · rename_i hpre
          unfold cpre at hpre; dsimp only at hpre
          rw [Bool.and_eq_true, decide_eq_true_eq] at hpre
          exact hpre.1
        · cases h2
      refine ⟨b.length, m, i, ds, s1, ?_, hm, ?_, ⟨?_, rfl⟩, rfl⟩
      · rw [List.getElem?_append_right (Nat.le_refl _), Nat.sub_self]; rfl
      · rw [List.take_append_of_le_length (Nat.le_refl _), List.take_length]; exact h1
      · rw [hpre]; rfl

/-- C84: a data entry that reaches a state machine (`on_apply`) was a task of some `Node::apply` at a leader, which led the
term of the entry, and has the index this leader gave it. -/
theorem applied_was_submitted_partial (hp : COk p) {acts : List (CAct N D)} {s : CSys N D} {i : N} {k t : Nat} {d : D}
    (h : runC p c0 initC acts = some s) (ha : Ev.applied i k ⟨t, .data d⟩ ∈ s.ev) :
    ∃ q m j, Submitted p c0 acts q m j t d k := by
  have h1 := (origin_inv hp acts h).ev _ ha
  obtain ⟨q, m, j, h2⟩ := h1.2 d rfl
  have : k - 1 + 1 = k := by have := h1.1; omega
  rw [this] at h2
  exact ⟨q, m, j, h2⟩

/-- C84: the same for what is stored, in memory or on disk, and for what a state machine has got (also with a snapshot). -/
theorem stored_was_submitted_partial (hp : COk p) {acts : List (CAct N D)} {s : CSys N D} {i : N} {k t : Nat} {d : D}
    (h : runC p c0 initC acts = some s) (l : Log N D) (hl : HoldsC s i l ∨ l = (s.node i).sm ∨ l = (s.node i).psnap)
    (ha : l[k]? = some ⟨t, .data d⟩) : ∃ q m j, Submitted p c0 acts q m j t d (k + 1) := by
  have hn := (origin_inv hp acts h).node i
  have hf := (facts_reach hp (csteps_of_run _ h)).1 i
  have : LP (Came p c0 acts) l := by
    rcases hl with (hl | hl) | hl | hl
    · rw [hl]; exact hn.log
    · rw [hl]; exact hn.dr.head
    · rw [hl, hf.sm]; exact hn.log.take _
    · rw [hl]; exact hn.psnap
  exact this _ _ ha d rfl

/-- C84: no duplication: a value that is in one task only is applied at one index and in one term only, by all nodes and
at all times. -/
theorem submitted_once_applied_once_partial (hp : COk p) {acts : List (CAct N D)} {s : CSys N D} {i i' : N} {k k' t t' : Nat}
    {d : D} (h : runC p c0 initC acts = some s) (ho : Once acts d) (ha : Ev.applied i k ⟨t, .data d⟩ ∈ s.ev)
    (ha' : Ev.applied i' k' ⟨t', .data d⟩ ∈ s.ev) : k = k' ∧ t = t' := by
  obtain ⟨q, m, j, ds, s0, h1, h2, h3, h4, h5⟩ := applied_was_submitted_partial hp h ha
  obtain ⟨q', m', j', ds', s0', h1', h2', h3', h4', h5'⟩ := applied_was_submitted_partial hp h ha'
  obtain ⟨e1, e2⟩ := ho _ _ _ _ _ _ _ _ h1 h1' h2 h2'
  subst e1; subst e2
  rw [h1] at h1'; cases h1'
  rw [h3] at h3'; cases h3'
  exact ⟨by rw [h5, h5'], h4.2.symm.trans h4'.2⟩

/-- A leader only appends while it leads a term: at two moments the same node leads, and what it held it still holds. -/
theorem leader_grows (hp : COk p) {s s' : CSys N D} {i j : N} {t : Nat} (h : CReachable p c0 s) (h' : CSteps p c0 s s')
    (hi : LeadsC s i t) (hj : LeadsC s' j t) : i = j ∧ (s.node i).log <+: (s'.node j).log := by
  obtain ⟨a, a', h1, h2, h3, h4⟩ := sim_two hp h h'
  have hI := inv_reachable h1
  have hI' := inv_reachable (steps_trans h1 h2)
  have r1 := (leads_role (h3.node i)).mp hi.1
  have r2 := (leads_role (h4.node j)).mp hj.1
  refine ⟨leaders_agree_partial hp h h' hi hj, ?_⟩
  have ho := (hI.own i r1).2
  have hg := (hI.n i).glog.1
  rw [← (h3.node i).log, ← (h4.node j).log]
  by_cases hne : (a.node i).log = []
  · rw [hne]; exact List.nil_prefix
  refine ((hI'.n j).lead r2).1 _ ((gle_steps h2).created _ (hg _ hne (List.prefix_refl _))) ?_
  rw [ho, (h3.node i).term, (h4.node j).term, hi.2, hj.2]

/-- What `apply` does to the log of the leader. -/
theorem apply_log {s s' : CSys N D} {j : N} {ds : List D} (h : cstep p c0 s (.apply j ds) = some s') :
    (s'.node j).log = (s.node j).log ++ ds.map (fun d => ⟨(s.node j).term, .data d⟩) ∧
    (s'.node j).state = (s.node j).state ∧ (s'.node j).term = (s.node j).term := by
  unfold cstep at h
  split at h
  · have h := Option.some.inj h
    rw [← h]
    dsimp only [updF, CAct.at]
    rw [if_pos rfl]
    exact ⟨rfl, rfl, rfl⟩
  · cases h

theorem run_later {s1 s : CSys N D} {b : List (CAct N D)} (h : runC p c0 s1 b = some s) : CSteps p c0 s1 s :=
  csteps_of_run _ h

/-- C84: tasks accepted in one term get their indexes in the order of acceptance: an earlier batch, or an earlier task of
the same batch, comes first. -/
theorem submission_order_partial (hp : COk p) {acts : List (CAct N D)} {s : CSys N D} {q q' m m' k k' t : Nat} {j j' : N}
    {d d' : D} (h : runC p c0 initC acts = some s) (h1 : Submitted p c0 acts q m j t d k)
    (h2 : Submitted p c0 acts q' m' j' t d' k') (hlt : q < q' ∨ q = q' ∧ m < m') : k < k' ∧ j = j' := by
  obtain ⟨ds, s0, a1, a2, a3, a4, a5⟩ := h1
  obtain ⟨ds', s0', b1, b2, b3, b4, b5⟩ := h2
  rcases hlt with hq | ⟨rfl, hm⟩
  · obtain ⟨s1, c1, c2, c3⟩ := runC_at h a1 a3
    obtain ⟨f1, f2, f3⟩ := apply_log c1
    have hs : CSteps p c0 s1 s0' := by
      have : acts.take q' = acts.take (q + 1) ++ (acts.drop (q + 1)).take (q' - (q + 1)) := by
        rw [← List.take_add, show q + 1 + (q' - (q + 1)) = q' by omega]
      rw [this, runC_append, c2] at b3
      exact csteps_of_run _ b3
    have hl : LeadsC s1 j t := ⟨by rw [f2]; exact a4.1, by rw [f3]; exact a4.2⟩
    obtain ⟨g1, g2⟩ := leader_grows hp (csteps_of_run _ c2) hs hl b4
    have g3 := g2.length_le
    rw [f1, List.length_append, List.length_map] at g3
    have : m < ds.length := (List.getElem?_eq_some_iff.mp a2).1
    exact ⟨by omega, g1⟩
  · rw [a1] at b1; cases b1
    rw [a3] at b3; cases b3
    exact ⟨by omega, rfl⟩

/-- C84: and none is left out in between: a node that holds the entry of a task, or whose state machine has got it, also
has those of all tasks accepted before it in the same term, at their indexes. -/
theorem no_gap_partial (hp : COk p) {acts : List (CAct N D)} {s : CSys N D} {i : N} {q q' m m' k k' t : Nat} {j j' : N}
    {d d' : D} (h : runC p c0 initC acts = some s) (h1 : Submitted p c0 acts q m j t d k)
    (h2 : Submitted p c0 acts q' m' j' t d' k') (hlt : q < q' ∨ q = q' ∧ m < m')
    (l : Log N D) (hl : HoldsC s i l ∨ l = (s.node i).sm) (ha : l[k' - 1]? = some ⟨t, .data d'⟩) :
    l[k - 1]? = some ⟨t, .data d⟩ := by
  obtain ⟨hk, hj⟩ := submission_order_partial hp h h1 h2 hlt
  subst hj
  obtain ⟨ds, s0, a1, a2, a3, a4, a5⟩ := h1
  obtain ⟨ds', s0', b1, b2, b3, b4, b5⟩ := h2
  obtain ⟨s1, c1, c2, c3⟩ := runC_at h a1 a3
  obtain ⟨s1', c1', c2', c3'⟩ := runC_at h b1 b3
  obtain ⟨f1, f2, f3⟩ := apply_log c1
  obtain ⟨f1', f2', f3'⟩ := apply_log c1'
  have hl1 : LeadsC s1 j t := ⟨by rw [f2]; exact a4.1, by rw [f3]; exact a4.2⟩
  have hl1' : LeadsC s1' j t := ⟨by rw [f2']; exact b4.1, by rw [f3']; exact b4.2⟩
  -- the leader's log after the later batch
  have hpre : (s1.node j).log <+: (s1'.node j).log := by
    rcases hlt with hq | ⟨hq, _⟩
    · have : acts.take (q' + 1) = acts.take (q + 1) ++ (acts.drop (q + 1)).take (q' + 1 - (q + 1)) := by
        rw [← List.take_add, show q + 1 + (q' + 1 - (q + 1)) = q' + 1 by omega]
      have c2'' := c2'
      rw [this, runC_append, c2] at c2''
      exact (leader_grows hp (csteps_of_run _ c2) (csteps_of_run _ c2'') hl1 hl1').2
    · subst hq
      rw [c2] at c2'; cases c2'
      exact List.prefix_refl _
  have e1 : (s1.node j).log[k - 1]? = some ⟨t, .data d⟩ := by
    rw [f1, a5, List.getElem?_append_right (by omega), show (s0.node j).log.length + m + 1 - 1 - (s0.node j).log.length = m by omega,
      List.getElem?_map, a2, a4.2]; rfl
  have e2 : (s1'.node j).log[k - 1]? = some ⟨t, .data d⟩ := by
    obtain ⟨x, hx⟩ := hpre
    rw [← hx, List.getElem?_append_left (List.getElem?_eq_some_iff.mp e1).1]; exact e1
  have e3 : (s1'.node j).log[k' - 1]? = some ⟨t, .data d'⟩ := by
    rw [f1', b5, List.getElem?_append_right (by omega),
      show (s0'.node j).log.length + m' + 1 - 1 - (s0'.node j).log.length = m' by omega, List.getElem?_map, b2, b4.2]; rfl
  have hk0 : 0 < k := by omega
  have main : ∀ l, HoldsC s i l → l[k' - 1]? = some ⟨t, .data d'⟩ → l[k - 1]? = some ⟨t, .data d⟩ := by
    intro l hl ha
    have := Cluster.log_matching_partial hp (csteps_of_run _ c2') (csteps_of_run _ c3') (Or.inl rfl) hl e3 ha rfl
    have hx : ((s1'.node j).log.take (k' - 1 + 1))[k - 1]? = (l.take (k' - 1 + 1))[k - 1]? := by rw [this]
    rw [List.getElem?_take_of_lt (by omega), List.getElem?_take_of_lt (by omega), e2] at hx
    exact hx.symm
  rcases hl with hl | hl
  · exact main l hl ha
  · have hf := (facts_reach hp (csteps_of_run _ h)).1 i
    rw [hl, hf.sm] at ha ⊢
    have hlt' : k' - 1 < (s.node i).applied := by
      have := (List.getElem?_eq_some_iff.mp ha).1
      rw [List.length_take] at this; omega
    rw [List.getElem?_take_of_lt hlt'] at ha
    rw [List.getElem?_take_of_lt (by omega)]
    exact main _ (Or.inl rfl) ha

/-- C84: first in, first out: two values, each of them in one task only, both accepted in one term: if state machines of
any two nodes have got them, then at indexes in the order of acceptance. -/
theorem fifo_partial (hp : COk p) {acts : List (CAct N D)} {s : CSys N D} {i i' j j' : N} {q q' m m' k k' t u u' n n' : Nat}
    {d d' : D} (h : runC p c0 initC acts = some s) (ho : Once acts d) (ho' : Once acts d')
    (h1 : Submitted p c0 acts q m j t d k) (h2 : Submitted p c0 acts q' m' j' t d' k') (hlt : q < q' ∨ q = q' ∧ m < m')
    (ha : Ev.applied i n ⟨u, .data d⟩ ∈ s.ev) (ha' : Ev.applied i' n' ⟨u', .data d'⟩ ∈ s.ev) : n < n' := by
  have key : ∀ {q m k t n u : Nat} {i j : N} {d : D}, Once acts d → Submitted p c0 acts q m j t d k →
      Ev.applied i n ⟨u, .data d⟩ ∈ s.ev → n = k := by
    intro q m k t n u i j d ho hs ha
    obtain ⟨q2, m2, j2, ds, s0, b1, b2, b3, b4, b5⟩ := applied_was_submitted_partial hp h ha
    obtain ⟨ds', s0', c1, c2, c3, c4, c5⟩ := hs
    obtain ⟨e1, e2⟩ := ho _ _ _ _ _ _ _ _ b1 c1 b2 c2
    subst e1; subst e2
    rw [b1] at c1; cases c1
    rw [b3] at c3; cases c3
    omega
  have := (submission_order_partial hp h h1 h2 hlt).1
  rw [key ho h1 ha, key ho' h2 ha']; exact this

/-- A history in which node 1 is elected, gets 7 and 8 in one batch and then 9, and all are applied by nodes 1 and 2. -/
def three : List A :=
  [.elect 1, .electB 1 ⟨2, (0, 0), 0⟩ true true, .voteReq 2 2 1 (0, 0) none,
   .voteReqB 2 ⟨2, 1, (0, 0), 1, (0, 0)⟩ true true true,
   .voteRes 1 ⟨2, 2, 1⟩ true false false 2 1 true,
   .apply 1 [7, 8], .apply 1 [9], .replSend 1 2 0, .replRead 1 (.send 2 2 0 0 0) 4,
   .append 2 2 1 0 0 [ce 2 c3, da 2 7, da 2 8, da 2 9] 0 true false, .disk 2, .disk 2, .disk 2, .disk 2, .disk 2,
   .disk 1, .disk 1, .disk 1, .disk 1, .disk 1, .disk 1, .disk 1, .replRes 1 2 1 4 4, .replAck 1 (.ack 2 2 1 4),
   .fsm 1, .fsm 1, .fsm 1, .fsm 1, .replSend 1 2 4, .replRead 1 (.send 2 2 4 2 4) 0,
   .append 2 2 1 4 2 [] 4 true false, .fsm 2, .fsm 2, .fsm 2, .fsm 2]

theorem three_runs : ∃ s, runC Defaults c3 initC three = some s ∧ Ev.applied 2 2 (da 2 7) ∈ s.ev ∧
    Ev.applied 1 4 (da 2 9) ∈ s.ev ∧ (s.node 2).sm = [ce 2 c3, da 2 7, da 2 8, da 2 9] := by
  have h : (runC Defaults c3 initC three).isSome = true := by decide +kernel
  refine ⟨after Defaults c3 initC three, ?_, by decide +kernel, by decide +kernel, by decide +kernel⟩
  unfold after
  cases hr : runC Defaults c3 initC three with
  | none => rw [hr] at h; cases h
  | some s => rfl

theorem three_sub : Submitted Defaults c3 three 5 1 1 2 8 3 ∧ Submitted Defaults c3 three 6 0 1 2 9 4 := by
  constructor
  · refine ⟨[7, 8], after Defaults c3 initC (three.take 5), rfl, rfl, ?_, ?_, by decide +kernel⟩
    · have h : (runC Defaults c3 initC (three.take 5)).isSome = true := by decide +kernel
      unfold after
      cases hr : runC Defaults c3 initC (three.take 5) with
      | none => rw [hr] at h; cases h
      | some s => rfl
    · unfold LeadsC; decide +kernel
  · refine ⟨[9], after Defaults c3 initC (three.take 6), rfl, rfl, ?_, ?_, by decide +kernel⟩
    · have h : (runC Defaults c3 initC (three.take 6)).isSome = true := by decide +kernel
      unfold after
      cases hr : runC Defaults c3 initC (three.take 6) with
      | none => rw [hr] at h; cases h
      | some s => rfl
    · unfold LeadsC; decide +kernel

/-- The places of the values in the batches of a history. -/
def places (acts : List A) : List (Nat × Nat × Nat) :=
  acts.zipIdx.flatMap (fun x => match x.1 with
    | .apply _ ds => ds.zipIdx.map (fun y => (y.1, x.2, y.2))
    | _ => [])

theorem mem_places {acts : List A} {q m : Nat} {j : Nat} {ds : List Nat} {d : Nat} (h1 : acts[q]? = some (.apply j ds))
    (h2 : ds[m]? = some d) : (d, q, m) ∈ places acts := by
  refine List.mem_flatMap.mpr ⟨(.apply j ds, q), ?_, ?_⟩
  · exact List.mem_zipIdx_iff_getElem?.mpr h1
  · exact List.mem_map.mpr ⟨(d, m), List.mem_zipIdx_iff_getElem?.mpr h2, rfl⟩

theorem three_once (d : Nat) : Once three d := by
  have hp : places three = [(7, 5, 0), (8, 5, 1), (9, 6, 0)] := by decide
  intro q q' j j' ds ds' m m' h1 h2 h3 h4
  have a1 := mem_places h1 h3
  have a2 := mem_places h2 h4
  rw [hp] at a1 a2
  simp only [List.mem_cons, Prod.mk.injEq, List.not_mem_nil, or_false] at a1 a2
  omega

/-- The hypotheses of the theorems are met by `three`. -/
example : ∃ s, runC Defaults c3 initC three = some s ∧ Ev.applied 2 2 (da 2 7) ∈ s.ev ∧ Once three 7 ∧
    Submitted Defaults c3 three 5 1 1 2 8 3 ∧ Submitted Defaults c3 three 6 0 1 2 9 4 ∧
    (s.node 2).sm[4 - 1]? = some (da 2 9) := by
  obtain ⟨s, h1, h2, h3, h4⟩ := three_runs
  exact ⟨s, h1, h2, three_once 7, three_sub.1, three_sub.2, by rw [h4]; rfl⟩

/-- The same value in two tasks is applied twice: the hypothesis `Once` is needed. -/
def twice : List A :=
  [.elect 1, .electB 1 ⟨2, (0, 0), 0⟩ true true, .voteReq 2 2 1 (0, 0) none,
   .voteReqB 2 ⟨2, 1, (0, 0), 1, (0, 0)⟩ true true true,
   .voteRes 1 ⟨2, 2, 1⟩ true false false 2 1 true,
   .apply 1 [7], .apply 1 [7], .replSend 1 2 0, .replRead 1 (.send 2 2 0 0 0) 3,
   .append 2 2 1 0 0 [ce 2 c3, da 2 7, da 2 7] 0 true false, .disk 2, .disk 2, .disk 2, .disk 2,
   .disk 1, .disk 1, .disk 1, .disk 1, .disk 1, .disk 1, .replRes 1 2 1 3 3, .replAck 1 (.ack 2 2 1 3),
   .fsm 1, .fsm 1, .fsm 1]

example : ∃ s : S, CReachable Defaults c3 s ∧ Ev.applied 1 2 (da 2 7) ∈ s.ev ∧ Ev.applied 1 3 (da 2 7) ∈ s.ev :=
  ⟨after Defaults c3 initC twice, after_ok (by decide +kernel), by decide +kernel, by decide +kernel⟩

end Braft.Props.Origin
