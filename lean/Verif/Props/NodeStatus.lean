import Verif.Cluster.Status
import Verif.Props.LogNode
/-
C87: what `get_status` reports.

One call reads the node, then the log manager, then the ballot box, at three moments `a`, `b`, `c`; between them anything
may happen, only the process goes on. The statements compare the fields with the log, the snapshot and the state machine of
the server.
-/
set_option linter.unusedVariables false
set_option linter.unusedSimpArgs false
set_option linter.unusedSectionVars false

namespace Braft.Props.NodeStatus
open Braft.Raft Braft.Cl Braft.Stat Braft.Cl.JTraces Braft.Props.LogStack
open Braft.Cl.Traces (c3 ce da)

variable {N D : Type} [DecidableEq N] [DecidableEq D] {c0 : Conf N} {p : CParams}

/-- The three moments of one call. -/
structure Call (p : CParams) (c0 : Conf N) (i : N) (a b c : JSys N D) : Prop where
  reach : JReachable p c0 a
  ab : Stays p c0 i a b
  bc : Stays p c0 i b c

/-- The entry at an index of the log of `i`. -/
def EntryAt (s : JSys N D) (i : N) (k : Nat) (e : Entry N D) : Prop := 1 ≤ k ∧ (s.cl.node i).log[k - 1]? = some e

theorem Call.rb {i : N} {a b c : JSys N D} (h : Call p c0 i a b c) : JReachable p c0 b := (later h.reach (stays_steps h.ab)).1
theorem Call.rc {i : N} {a b c : JSys N D} (h : Call p c0 i a b c) : JReachable p c0 c := (later h.rb (stays_steps h.bc)).1

/-- C87: the log on disk begins at an index from 1 to one above what is applied, and no later than after its end; what is
applied is what the state machine has, and it is committed or part of the last snapshot. -/
theorem C87_indexes_partial (hp : COk p) {i : N} {a b c : JSys N D} (h : Call p c0 i a b c) (hw : Works b i) :
    1 ≤ (report i a b c).firstIndex ∧ (report i a b c).firstIndex ≤ (report i a b c).lastIndex + 1 ∧
    (report i a b c).firstIndex ≤ (report i a b c).knownAppliedIndex + 1 ∧
    (report i a b c).knownAppliedIndex = ((b.cl.node i).sm.length : Nat) ∧
    ((report i a b c).knownAppliedIndex ≤ (report i a b c).committedIndex ∨
      (report i a b c).knownAppliedIndex ≤ ((b.cl.node i).snap.length : Nat)) := by
  obtain ⟨hl, hf⟩ := facts hp h.rb i hw
  obtain ⟨n, hn⟩ := hl.st
  have h1 := hn.first
  have h2 := hn.last
  have h3 := hn.le
  have h4 := hl.first_le
  have h5 := hl.fst
  have h6 := hf.sa
  have h7 : (b.ln i).lm.applied.index = ((b.cl.node i).applied : Nat) := by rw [hl.app]
  have h8 : (b.cl.node i).sm.length = (b.cl.node i).applied := by
    rw [hf.sm, List.length_take, Nat.min_eq_left hf.ap]
  have hr := (jreach hp h.rb).1
  have h9 := (cstays_mono hp hr (stays_cstays h.bc)).1
  have h10 := cov_reach hp hr i
  show 1 ≤ (b.ln i).lm.store.first ∧ (b.ln i).lm.store.first ≤ (b.ln i).lm.store.last + 1 ∧
    (b.ln i).lm.store.first ≤ (b.ln i).lm.applied.index + 1 ∧ (b.ln i).lm.applied.index = _ ∧
    ((b.ln i).lm.applied.index ≤ (((c.cl.node i).bb.lastCommitted : Nat) : Int) ∨ (b.ln i).lm.applied.index ≤ _)
  rw [h7, h8]
  refine ⟨by omega, by omega, by omega, rfl, ?_⟩
  rcases h10 with h10 | h10
  · left; omega
  · right; omega

/-- C87: at the indexes from first_index to last_index the disk has the entries of one log that agrees with the other
nodes' (C76): each of them can be read back. -/
theorem C87_on_disk_partial (hp : COk p) {i : N} {a b c : JSys N D} (h : Call p c0 i a b c) (hw : Works b i) (k : Nat)
    (h1 : (report i a b c).firstIndex ≤ k) (h2 : (k : Int) ≤ (report i a b c).lastIndex) : ∃ e, Stored b i k e := by
  obtain ⟨hl, hf⟩ := facts hp h.rb i hw
  obtain ⟨n, hn⟩ := hl.st
  have h3 := hn.first
  have h4 := hn.last
  have h1 : (b.ln i).lm.store.first ≤ k := h1
  have h2 : (k : Int) ≤ (b.ln i).lm.store.last := h2
  obtain ⟨m, rfl⟩ : ∃ m, k = m + 1 := ⟨k - 1, by omega⟩
  have := hn.at m
  rw [if_pos (by omega), List.getElem?_eq_getElem (show m < (b.cl.node i).disk.length by omega)] at this
  exact ⟨_, this⟩

/-- C87: entries are pending at leaders only; they are those of the leader's log from pending_index on, all of its term and
after the committed index. -/
theorem C87_pending_partial (hp : COk p) {i : N} {a b c : JSys N D} (h : Call p c0 i a b c) :
    ((c.cl.node i).state.leads = false → (report i a b c).pendingIndex = 0 ∧ (report i a b c).pendingQueueSize = 0) ∧
    ((report i a b c).pendingIndex = 0 ↔ (report i a b c).pendingQueueSize = 0) ∧
    ((report i a b c).pendingIndex ≠ 0 → (report i a b c).committedIndex < (report i a b c).pendingIndex ∧
      (report i a b c).pendingIndex + (report i a b c).pendingQueueSize = (c.cl.node i).log.length + 1 ∧
      ∀ k e, (report i a b c).pendingIndex ≤ k → EntryAt c i k e → e.term = (c.cl.node i).term) := by
  obtain ⟨x, hx, hr⟩ := sim_reach hp (jreach hp h.rc).1
  have r := hr.node i
  unfold report
  dsimp only
  by_cases hq : (c.cl.node i).bb.queue.isEmpty = true
  · rw [if_pos hq]
    have hq' := List.isEmpty_iff.mp hq
    rw [hq']
    exact ⟨fun _ => ⟨rfl, rfl⟩, ⟨fun _ => rfl, fun _ => rfl⟩, fun h => absurd rfl h⟩
  · rw [if_neg hq]
    have hlen : (c.cl.node i).bb.queue.length ≠ 0 := fun h0 => hq (List.isEmpty_iff.mpr (List.length_eq_zero_iff.mp h0))
    cases hs : (c.cl.node i).state.leads with
    | false => exact absurd (List.isEmpty_iff.mpr (r.fol hs).2) hq
    | true =>
      have lb := r.lead hs
      have hpos := lb.pos
      refine ⟨fun h => (by cases h), ⟨fun h0 => absurd h0 (by omega), fun h0 => absurd h0 hlen⟩, fun _ => ⟨lb.lc, lb.len, ?_⟩⟩
      intro k e hk he
      have hlt := (List.getElem?_eq_some_iff.mp he.2).1
      have hk1 := he.1
      have := lb.tm k hk (by omega)
      unfold termAt at this
      rw [if_neg (by omega), he.2] at this
      exact this

/-- C87: entries up to the committed index are permanent: every node has them at these indexes as soon as it has applied
them, and so has every later leader of the same or a later term. -/
theorem C87_committed_partial (hp : COk p) {i : N} {a b c : JSys N D} (h : Call p c0 i a b c) (k : Nat)
    (h1 : 1 ≤ k) (hk : k ≤ (report i a b c).committedIndex) :
    ∃ e, EntryAt c i k e ∧ ∀ d, JSteps p c0 c d → ∀ j,
      (k ≤ (d.cl.node j).applied → EntryAt d j k e) ∧
      ∀ t, Cluster.LeadsC d.cl j t → (c.cl.node i).term ≤ t → EntryAt d j k e := by
  have hr := (jreach hp h.rc).1
  have hk : k ≤ (c.cl.node i).bb.lastCommitted := hk
  have hcl := ((facts_reach hp hr).1 i).cl
  have hlt : k - 1 < (c.cl.node i).log.length := by omega
  refine ⟨(c.cl.node i).log[k - 1], ⟨h1, List.getElem?_eq_getElem hlt⟩, fun d hd j => ⟨fun hj => ⟨h1, ?_⟩, fun t ht htt => ⟨h1, ?_⟩⟩⟩
  · obtain ⟨x, y, hx, hxy, hsx, hsy⟩ := Cluster.sim_two hp hr (later h.rc hd).2
    have hIx := inv_reachable hx
    have hIy := inv_reachable (steps_trans hx hxy)
    have hcc := committed_later hxy (hIx.n i).cc
    have hac := (hIy.n j).ac
    have hap := (hIy.n j).ap
    rw [(hsx.node i).commit, (hsx.node i).log] at hcc
    rw [(hsy.node j).applied, (hsy.node j).log] at hac hap
    have e1 : ((d.cl.node j).log.take (d.cl.node j).applied)[k - 1]? = (d.cl.node j).log[k - 1]? :=
      List.getElem?_take_of_lt (by omega)
    have e2 : ((c.cl.node i).log.take (c.cl.node i).bb.lastCommitted)[k - 1]? = (c.cl.node i).log[k - 1]? :=
      List.getElem?_take_of_lt (by omega)
    rw [← e1, ← List.getElem?_eq_getElem hlt, ← e2]
    rcases hIy.g.toGBase.comm_total hac hcc with hc | hc
    · obtain ⟨r, hr'⟩ := hc
      rw [← hr', List.getElem?_append_left (by rw [List.length_take]; omega)]
    · obtain ⟨r, hr'⟩ := hc
      rw [← hr', List.getElem?_append_left (by rw [List.length_take]; omega)]
  · have := Cluster.leader_completeness_partial (n := k) (i := i) hp hr (later h.rc hd).2 (Or.inl hk) ht htt
    have e1 : ((d.cl.node j).log.take k)[k - 1]? = (d.cl.node j).log[k - 1]? := List.getElem?_take_of_lt (by omega)
    have e2 : ((c.cl.node i).log.take k)[k - 1]? = (c.cl.node i).log[k - 1]? := List.getElem?_take_of_lt (by omega)
    rw [← e1, this.1, e2, List.getElem?_eq_getElem hlt]

/-- C87: the term, the committed index and the applied index of a process never go back from one call to another whose
reads come later. -/
theorem C87_monotone_partial (hp : COk p) {i : N} {a b c a' b' c' : JSys N D} (h : Call p c0 i a b c) (h' : Call p c0 i a' b' c')
    (ha : Stays p c0 i a a') (hb : Stays p c0 i b b') (hc : Stays p c0 i c c') (hw : Works b i) (hw' : Works b' i) :
    (report i a b c).term ≤ (report i a' b' c').term ∧ (report i a b c).committedIndex ≤ (report i a' b' c').committedIndex ∧
    (report i a b c).knownAppliedIndex ≤ (report i a' b' c').knownAppliedIndex := by
  refine ⟨(cstays_mono hp (jreach hp h.reach).1 (stays_cstays ha)).2.2, (cstays_mono hp (jreach hp h.rc).1 (stays_cstays hc)).1, ?_⟩
  show (b.ln i).lm.applied.index ≤ (b'.ln i).lm.applied.index
  rw [(facts hp h.rb i hw).1.app, (facts hp h'.rb i hw').1.app]
  have := (cstays_mono hp (jreach hp h.rb).1 (stays_cstays hb)).2.1
  exact Int.ofNat_le.mpr this

/-- C87: two reports with the same term, of any nodes at any time, do not name different leaders; a leader names itself. -/
theorem C87_leader_partial (hp : COk p) {i j : N} {a b c a' b' c' : JSys N D} (h : Call p c0 i a b c) (hs : JSteps p c0 a a') :
    ((report i a b c).state.leads = true → (report i a b c).leaderId = some i) ∧
    ∀ l l', (report i a b c).leaderId = some l → (report j a' b' c').leaderId = some l' →
      (report i a b c).term = (report j a' b' c').term → l = l' := by
  refine ⟨fun hl => ?_, fun l l' hl hl' ht => ?_⟩
  · show leaderOf i (a.cl.node i) = _
    unfold leaderOf
    have hl : (a.cl.node i).state.leads = true := hl
    rw [if_pos hl]
  · obtain ⟨hr', hst⟩ := later h.reach hs
    have named : ∀ {s : JSys N D} {i l : N}, JReachable p c0 s → leaderOf i (s.cl.node i) = some l → Ev.lead l (s.cl.node i).term ∈ s.cl.ev := by
      intro s i l hr hn
      obtain ⟨x, hx, hsr⟩ := sim_reach hp (jreach hp hr).1
      unfold leaderOf at hn
      split at hn
      · rename_i hlead
        cases hn
        exact (hsr.node i).me hlead
      · split at hn
        · exact (hsr.node i).lid l hn
        · cases hn
    have e1 := Cluster.ev_mono hst _ (named h.reach hl)
    have e2 := named hr' hl'
    have ht : (a.cl.node i).term = (a'.cl.node j).term := ht
    rw [ht] at e1
    exact Cluster.one_leader_per_term_partial hp (jreach hp hr').1 e1 e2

/-! ### What the reports do not promise -/

/-- 1 is elected in term 2 and appends 7; 2 and 3 store it, the disk of 1 is slow. -/
def slow : List J :=
  [sv (.elect 1), sv (.electB 1 ⟨2, (0, 0), 0⟩ true true), sv (.voteReq 2 2 1 (0, 0) none),
   sv (.voteReqB 2 ⟨2, 1, (0, 0), 1, (0, 0)⟩ true true true),
   sv (.voteRes 1 ⟨2, 2, 1⟩ true false false 2 1 true),
   sv (.apply 1 [7]), sv (.replSend 1 2 0), sv (.replRead 1 (.send 2 2 0 0 0) 2),
   sv (.append 2 2 1 0 0 [ce 2 c3, da 2 7] 0 true false), .begin 2, .flush 2 1, .fin 2,
   sv (.replSend 1 3 0), sv (.replRead 1 (.send 2 3 0 0 0) 2),
   sv (.append 3 2 1 0 0 [ce 2 c3, da 2 7] 0 true false), .begin 3, .flush 3 1, .fin 3,
   sv (.replRes 1 2 1 2 2), sv (.replAck 1 (.ack 2 2 1 2)), sv (.replRes 1 3 1 2 2), sv (.replAck 1 (.ack 2 3 1 2)),
   sv (.fsm 1), sv (.fsm 1)]

def t1 : JS := afterJ Dflt c3 initJ slow
/-- 1 saves a snapshot and starts again. -/
def t2 : JS := afterJ Dflt c3 s1 [sv (.saveSnap 1 2), sv (.crash 1)]
/-- 2 becomes leader of term 3 and replaces 8 and 9 at 1; the truncation is done, the new entry not yet. -/
def t3 : JS := afterJ Dflt c3 s2
  [sv (.elect 2), sv (.electB 2 ⟨3, (2, 2), 0⟩ true true), sv (.voteReq 3 3 2 (2, 2) none),
   sv (.voteReqB 3 ⟨3, 2, (2, 2), 1, (0, 0)⟩ true true true),
   sv (.voteRes 2 ⟨3, 3, 1⟩ true false false 3 1 true),
   sv (.replSend 2 1 2), sv (.replRead 2 (.send 3 1 2 2 2) 1),
   sv (.append 1 3 2 2 2 [ce 3 c3] 2 true false), .begin 1, .exec 1, .fin 1]

theorem t1_ok : JReachable Dflt c3 t1 := afterJ_ok (by decide +kernel)
theorem t2_ok : JReachable Dflt c3 t2 := jsteps_append s1_ok (afterJ_ok (by decide +kernel))
theorem t3_ok : JReachable Dflt c3 t3 := jsteps_append s2_ok (afterJ_ok (by decide +kernel))

theorem at_once {i : Nat} {s : JS} (h : JReachable Dflt c3 s) : Call Dflt c3 i s s s := ⟨h, .refl, .refl⟩

/-- C87, violated: last_index is documented as the last log "including the logs in memory and disk", but only the disk is
looked at. A leader reports a committed and an applied entry beyond last_index, although it can read it. -/
theorem C87_last_index_violated : ∃ s : JS, Call Dflt c3 1 s s s ∧ Works s 1 ∧ EntryAt s 1 2 (da 2 7) ∧ Reads s 1 2 (da 2 7) ∧
    (report 1 s s s).state = .leader ∧
    (report 1 s s s).committedIndex = 2 ∧ (report 1 s s s).knownAppliedIndex = 2 ∧ (report 1 s s s).lastIndex = 0 :=
  ⟨t1, at_once t1_ok, by unfold Works; decide +kernel, ⟨by decide, by decide +kernel⟩, by unfold Reads; decide +kernel, by decide +kernel,
    by decide +kernel, by decide +kernel, by decide +kernel⟩

/-- C87, violated: a node that starts with a snapshot reports that it has applied more than is committed. -/
theorem C87_committed_index_violated : ∃ s : JS, Call Dflt c3 1 s s s ∧ Works s 1 ∧
    (report 1 s s s).committedIndex = 0 ∧ (report 1 s s s).knownAppliedIndex = 2 :=
  ⟨t2, at_once t2_ok, by unfold Works; decide +kernel, by decide +kernel, by decide +kernel⟩

/-- C87, violated: disk_index is documented as the last log on disk; after conflicting entries were removed from the disk it
names one of them. -/
theorem C87_disk_index_violated : ∃ s : JS, Call Dflt c3 1 s s s ∧ Works s 1 ∧
    (report 1 s s s).diskIndex = 4 ∧ (report 1 s s s).lastIndex = 2 ∧ ∀ e, ¬ Stored s 1 4 e :=
  ⟨t3, at_once t3_ok, by unfold Works; decide +kernel, by decide +kernel, by decide +kernel, by
    intro e he
    unfold Stored at he
    have h0 : (t3.ln 1).lm.store.at (4 : Nat) = none := by decide +kernel
    rw [h0] at he
    cases he⟩

/-- In `s1` leader 1 has applied two entries, both on disk; in `s2` its entries 3 and 4 are pending; `s1` to `s2` is a call
during which the log is compacted. -/
theorem stays12 : Stays Dflt c3 1 s1 s2 := by
  have run : ∀ (as : List J) (s s' : JS), runJ Dflt c3 s as = some s' →
      (∀ a ∈ as, ∀ s, ends Dflt 1 s a = false) → Stays Dflt c3 1 s s' := by
    intro as
    induction as with
    | nil => intro s s' h _; cases h; exact .refl
    | cons a as ih =>
      intro s s' h he
      unfold runJ at h
      split at h
      · cases h
      · rename_i x hx
        have h2 := ih x s' h (fun b hb => he b (List.mem_cons_of_mem _ hb))
        clear ih
        have h1 : Stays Dflt c3 1 s x := .tail a .refl hx (he a List.mem_cons_self s)
        clear h hx he
        induction h2 with
        | refl => exact h1
        | tail b _ hs hb ih => exact .tail b ih hs hb
  refine run two s1 s2 ?_ ?_
  · show runJ Dflt c3 s1 two = some ((runJ Dflt c3 s1 two).getD s1)
    have h : (runJ Dflt c3 s1 two).isSome = true := by decide +kernel
    cases hr : runJ Dflt c3 s1 two with
    | none => rw [hr] at h; cases h
    | some x => rfl
  · intro a ha s
    simp only [two, List.mem_cons, List.not_mem_nil, or_false] at ha
    rcases ha with rfl | rfl | rfl | rfl | rfl | rfl | rfl | rfl | rfl | rfl | rfl | rfl | rfl | rfl | rfl | rfl
      <;> simp [ends, restarts, aborts, sv]

example : Call Dflt c3 1 s1 s1 s2 ∧ Works s1 1 ∧ (report 1 s1 s1 s2).leaderId = some 1 ∧ (report 1 s1 s1 s2).firstIndex = 1 ∧
    (report 1 s1 s1 s2).lastIndex = 2 ∧ (report 1 s1 s1 s2).committedIndex = 2 ∧ (report 1 s1 s1 s2).pendingIndex = 3 ∧
    (report 1 s1 s1 s2).pendingQueueSize = 2 ∧ (report 2 s1 s1 s1).leaderId = some 1 ∧ (report 2 s1 s1 s1).term = 2 :=
  ⟨⟨s1_ok, .refl, stays12⟩, by unfold Works; decide +kernel, by decide +kernel, by decide +kernel, by decide +kernel, by decide +kernel,
    by decide +kernel, by decide +kernel, by decide +kernel, by decide +kernel⟩

/-- Two calls, one before and one after the compaction. -/
example : Call Dflt c3 1 s1 s1 s1 ∧ Call Dflt c3 1 s2 s2 s2 ∧ Stays Dflt c3 1 s1 s2 ∧ Works s1 1 ∧ Works s2 1 ∧
    (report 1 s1 s1 s1).firstIndex = 1 ∧ (report 1 s2 s2 s2).firstIndex = 2 :=
  ⟨at_once s1_ok, at_once s2_ok, stays12, by unfold Works; decide +kernel, by unfold Works; decide +kernel, by decide +kernel, by decide +kernel⟩

end Braft.Props.NodeStatus
