import Verif.Cluster.LogNodeSafe
import Verif.Cluster.LogNodeTraces
import Verif.Props.Cluster
/-
Theorems about servers that run a real LogManager (Verif/Cluster/LogNode.lean): C76.

Specification vocabulary:
* `JReachable p c0 s`: `s` is a state of some execution of a group of servers with the initial
  configuration `c0`, each with its LogManager; `JSteps p c0 s s'`: `s'` is a later state.
* `Works s i`: the LogManager of node `i` has not reported an error.
* `Reads s i k e`: `get_entry(k)` of node `i`'s LogManager answers with `e`.
* `Stored s i k e`: the log storage of node `i` has `e` at index `k`.
* `(s.cl.node i).log`: the log of the protocol, entry number `k` (from 0) has index `k + 1`.
-/
set_option linter.unusedVariables false
set_option linter.unusedSimpArgs false
set_option linter.unusedSectionVars false

namespace Braft.Props.LogStack
open Braft.Raft Braft.Cl Braft.Cl.JTraces
open Braft.Cl.Traces (c3 ce da)
open Braft.MemLog (Ent)

section Spec
variable {N D : Type} [DecidableEq N] [DecidableEq D]

def Works (s : JSys N D) (i : N) : Prop := (s.ln i).lm.err = false

/-- An entry with its index. -/
def atIndex (k : Nat) (e : Entry N D) : Ent (Payload N D) := ⟨k, e.term, e.payload⟩

def Reads (s : JSys N D) (i : N) (k : Nat) (e : Entry N D) : Prop := (s.ln i).lm.getEntry k = some (atIndex k e)

def Stored (s : JSys N D) (i : N) (k : Nat) (e : Entry N D) : Prop := (s.ln i).lm.store.at k = some (atIndex k e)

/-- `k` is an index of the log that has been removed because a snapshot covers it. -/
def Compacted (s : JSys N D) (i : N) (k : Nat) : Prop := (k : Int) < (s.ln i).lm.first
end Spec

variable {N D : Type} [DecidableEq N] [DecidableEq D] {c0 : Conf N} {p : CParams}

theorem facts (hp : COk p) {s : JSys N D} (h : JReachable p c0 s) (i : N) (hw : Works s i) :
    Live (s.cl.node i) (s.ln i) ∧ SF (s.cl.node i) :=
  ⟨joint_live ((jreach hp h).2 i) hw, (facts_reach hp (jreach hp h).1).1 i⟩

/-- The default flags. -/
abbrev Dflt : CParams := Cluster.Defaults

def s1 : JS := afterJ Dflt c3 initJ one
def s2 : JS := afterJ Dflt c3 s1 two
def s3 : JS := afterJ Dflt c3 s2 three
def s4 : JS := afterJ Dflt c3 s3 four

theorem s1_ok : JReachable Dflt c3 s1 := afterJ_ok (by decide +kernel)
theorem s12 : JSteps Dflt c3 s1 s2 := afterJ_ok (by decide +kernel)
theorem s23 : JSteps Dflt c3 s2 s3 := afterJ_ok (by decide +kernel)
theorem s34 : JSteps Dflt c3 s3 s4 := afterJ_ok (by decide +kernel)
theorem s2_ok : JReachable Dflt c3 s2 := jsteps_append s1_ok s12
theorem s3_ok : JReachable Dflt c3 s3 := jsteps_append s2_ok s23
theorem s4_ok : JReachable Dflt c3 s4 := jsteps_append s3_ok s34

instance (s : JSys Nat Nat) (i : Nat) : Decidable (Works s i) := inferInstanceAs (Decidable (_ = _))
instance (s : JSys Nat Nat) (i k : Nat) (e : Entry Nat Nat) : Decidable (Reads s i k e) := inferInstanceAs (Decidable (_ = _))
instance (s : JSys Nat Nat) (i k : Nat) (e : Entry Nat Nat) : Decidable (Stored s i k e) := inferInstanceAs (Decidable (_ = _))
instance (s : JSys Nat Nat) (i k : Nat) : Decidable (Compacted s i k) := inferInstanceAs (Decidable (_ < _))

/-! ### What LogManager answers -/

/-- C76: `get_entry` answers with the entry the protocol's log has at that index, for every index that is not
compacted; only indexes the snapshot covers are compacted. -/
theorem C76_get_entry_partial (hp : COk p) {s : JSys N D} (h : JReachable p c0 s) (i : N) (hw : Works s i) :
    (∀ k e, Reads s i (k + 1) e ↔ (s.cl.node i).log[k]? = some e ∧ ¬ Compacted s i (k + 1)) ∧
    (∀ k, Compacted s i (k + 1) → k < (s.cl.node i).snap.length) := by
  obtain ⟨hl, f⟩ := facts hp h i hw
  obtain ⟨n, v⟩ := hl.view f
  have hvf := v.first
  have hfst := hl.fst
  constructor
  · intro k e
    have hv := v.entry k
    unfold Reads Compacted atIndex
    rw [show ((k + 1 : Nat) : Int) = (k : Int) + 1 by omega, hv]
    by_cases hk : n ≤ k
    · rw [if_pos hk]
      cases (s.cl.node i).log[k]? with
      | none => simp
      | some e' =>
        obtain ⟨t, w⟩ := e
        obtain ⟨t', w'⟩ := e'
        simp only [Option.map_some, Option.some.injEq, Ent.mk.injEq, true_and, Entry.mk.injEq]
        constructor
        · rintro ⟨h1, h2⟩; exact ⟨⟨by omega, h2⟩, by omega⟩
        · rintro ⟨⟨h1, h2⟩, _⟩; exact ⟨by omega, h2⟩
    · rw [if_neg hk]
      constructor
      · intro h; cases h
      · intro h; omega
  · intro k hk
    unfold Compacted at hk
    omega

/-- Node 1 of `s2` has compacted index 1, reads 2 to 4 (8 and 9 are not replicated). -/
example : JReachable Dflt c3 s2 ∧ Works s2 1 ∧ Compacted s2 1 1 ∧ Reads s2 1 2 (da 2 7) ∧ Reads s2 1 4 (da 2 9) ∧
    (s2.ln 1).lm.mem.length = 2 := ⟨s2_ok, by decide +kernel⟩

/-- C76: `get_entry` of an index the log does not have answers with nothing. -/
theorem C76_no_entry_partial (hp : COk p) {s : JSys N D} (h : JReachable p c0 s) (i : N) (hw : Works s i) (k : Nat)
    (hk : (s.cl.node i).log.length < k ∨ k = 0) : (s.ln i).lm.getEntry k = none := by
  obtain ⟨hl, f⟩ := facts hp h i hw
  obtain ⟨n, v⟩ := hl.view f
  have hvf := v.first
  have hvl := v.last
  unfold LogMgr.State.getEntry
  rw [if_pos (by omega)]

example : (s2.cl.node 1).log.length < 5 := by decide +kernel

/-- C76: `get_term` answers with the term of the protocol's log at every index, or with 0 for an index below the last
one the snapshot covers. -/
theorem C76_get_term_partial (hp : COk p) {s : JSys N D} (h : JReachable p c0 s) (i : N) (hw : Works s i) (k : Nat) :
    (s.ln i).lm.getTerm k = termAt (s.cl.node i).log k ∨
    ((s.ln i).lm.getTerm k = 0 ∧ 0 < k ∧ k < (s.cl.node i).snap.length) := by
  obtain ⟨hl, f⟩ := facts hp h i hw
  have := hl.term f k
  by_cases hg : goneOf (s.ln i).lm k = true
  · right
    rw [if_pos hg] at this
    unfold goneOf at hg
    simp only [Bool.and_eq_true, decide_eq_true_eq] at hg
    have hsi : (s.ln i).lm.snap.index = (s.cl.node i).snap.length := by rw [hl.snap]; rfl
    exact ⟨this, hg.1.2, by omega⟩
  · left
    rw [if_neg hg] at this
    exact this

/-- Both cases: index 1 of node 1 is below its snapshot and compacted. In `s4` it has another entry 3. -/
example : (s2.ln 1).lm.getTerm 1 = 2 ∧ (s2.ln 1).lm.getTerm 3 = 2 ∧ (s4.ln 1).lm.getTerm 1 = 0 ∧ (s4.ln 1).lm.getTerm 3 = 3 := by decide +kernel

/-- C76: `last_log_id` answers with the last index and term of the protocol's log, also when everything is
compacted: what a candidate compares (node.cpp:1701) and a voter checks. -/
theorem C76_last_log_id_partial (hp : COk p) {s : JSys N D} (h : JReachable p c0 s) (i : N) (hw : Works s i) :
    (s.ln i).lm.lastLogId = ⟨(s.cl.node i).log.length, lastTerm (s.cl.node i).log⟩ := by
  obtain ⟨hl, f⟩ := facts hp h i hw
  obtain ⟨n, v⟩ := hl.view f
  have hvf := v.first
  have hvl := v.last
  have hfst := hl.fst
  have hle := v.le
  unfold LogMgr.State.lastLogId
  by_cases hc : (s.ln i).lm.last ≥ (s.ln i).lm.first
  · rw [if_pos hc, hvl, v.term (by omega), termAt_take (Nat.le_refl _), List.take_length]
  · rw [if_neg hc, hl.snap]
    obtain ⟨r, hr⟩ := f.sn
    have : r = [] := by
      have := congrArg List.length hr
      rw [List.length_append] at this
      apply List.length_eq_zero_iff.mp
      omega
    rw [this, List.append_nil] at hr
    rw [hr]
    rfl

/-- A log with entries, and one that is empty after a snapshot and clear_bufferred_logs. -/
example : (s2.ln 1).lm.lastLogId = ⟨4, 2⟩ ∧ ∃ s : JS, JReachable Dflt c3 s ∧ Works s 1 ∧ (s.ln 1).lm.last < (s.ln 1).lm.first ∧
    (s.ln 1).lm.lastLogId = ⟨2, 2⟩ := by
  refine ⟨by decide +kernel, afterJ Dflt c3 s1 [sv (.saveSnap 1 2), .buffered 1], jsteps_append s1_ok (afterJ_ok (by decide +kernel)), ?_⟩
  decide +kernel

/-! ### What is stored -/

/-- C76: the storage has what the protocol's model has on disk, from its first index on, which the snapshot
covers or follows. -/
theorem C76_storage_partial (hp : COk p) {s : JSys N D} (h : JReachable p c0 s) (i : N) (hw : Works s i) :
    (∀ k e, Stored s i (k + 1) e ↔ (s.cl.node i).disk[k]? = some e ∧ (s.ln i).lm.store.first ≤ k + 1) ∧
    1 ≤ (s.ln i).lm.store.first ∧ (s.ln i).lm.store.first ≤ (s.cl.node i).snap.length + 1 := by
  obtain ⟨hl, f⟩ := facts hp h i hw
  obtain ⟨n, hn⟩ := hl.st
  have hnf := hn.first
  have h1 := hl.first_le
  have h2 := hl.fst
  refine ⟨?_, by omega, by omega⟩
  intro k e
  unfold Stored atIndex
  rw [show ((k + 1 : Nat) : Int) = (k : Int) + 1 by omega, hn.at k]
  by_cases hk : n ≤ k
  · rw [if_pos hk]
    cases (s.cl.node i).disk[k]? with
    | none => simp
    | some e' =>
      obtain ⟨t, w⟩ := e
      obtain ⟨t', w'⟩ := e'
      simp only [Option.map_some, Option.some.injEq, Ent.mk.injEq, true_and, Entry.mk.injEq]
      constructor
      · rintro ⟨h1, h2⟩; exact ⟨⟨by omega, h2⟩, by omega⟩
      · rintro ⟨⟨h1, h2⟩, _⟩; exact ⟨by omega, h2⟩
  · rw [if_neg hk]
    constructor
    · intro h; cases h
    · intro h; omega

/-- Node 1 has replaced entries 3 and 4 by one of term 3, after a failure and a restart. -/
example : Stored s2 1 3 (da 2 8) ∧ Stored s4 1 3 (ce 3 c3) ∧ (s4.ln 1).lm.store.first = 2 ∧ (s4.ln 1).lm.store.ents.length = 2 := by
  decide +kernel

/-- C76: every storage call the disk thread has still to make is within the storage's contract (an append
continues the storage, a truncation is inside it), whatever was queued by elections, requests of leaders, snapshots
and restarts; after them the storage is the log. -/
theorem C76_queue_partial (hp : COk p) {s : JSys N D} (h : JReachable p c0 s) (i : N) (hw : Works s i) :
    ∃ a, (s.ln i).lm.store.runAll (s.ln i).lm.queue = some a ∧ a.first = (s.ln i).lm.first ∧
      ∀ k : Nat, a.at k = (s.ln i).lm.getEntry k := by
  obtain ⟨hl, f⟩ := facts hp h i hw
  obtain ⟨n, v⟩ := hl.view f
  refine ⟨LogMgr.logOf (s.ln i).lm (ents n ((s.cl.node i).log.drop n)), (by rw [hl.sq]; exact hl.fin v), rfl, fun k => ?_⟩
  exact (v.inv.toCore.getEntry (k : Int)).symm

/-- A truncation and an append wait when 2 has sent its entry to 1. -/
example : ∃ s : JS, JReachable Dflt c3 s ∧ Works s 1 ∧ (s.ln 1).lm.queue.length = 2 ∧ (s.ln 1).lm.store.ents.length = 3 := by
  refine ⟨afterJ Dflt c3 s2 (three.take 8), jsteps_append s2_ok (afterJ_ok (by decide +kernel)), ?_⟩
  decide +kernel

/-- C76: `check_consistency` holds in every state of a working node, so after a restart the node starts
(node.cpp:582-588). -/
theorem C76_consistent_partial (hp : COk p) {s : JSys N D} (h : JReachable p c0 s) (i : N) (hw : Works s i) :
    (s.ln i).lm.consistent = true := by
  obtain ⟨hl, f⟩ := facts hp h i hw
  obtain ⟨n, v⟩ := hl.view f
  have hvf := v.first
  have hvl := v.last
  have hfst := hl.fst
  have hsl := f.sn.length_le
  have hsi : (s.ln i).lm.snap.index = (s.cl.node i).snap.length := by rw [hl.snap]; rfl
  unfold LogMgr.State.consistent
  split
  · rename_i h0
    rw [h0] at hsi
    have hsi : (0 : Int) = (s.cl.node i).snap.length := hsi
    rw [decide_eq_true_eq]
    omega
  · rw [Bool.and_eq_true, decide_eq_true_eq, decide_eq_true_eq]
    omega

/-- C76: a node whose storage failed, at any point of any call, can be started again, and then works. -/
theorem C76_restart_partial (hp : COk p) {s : JSys N D} (h : JReachable p c0 s) (i : N) (hw : ¬ Works s i) :
    ∃ n s', jstep p c0 s (.die i n) = some s' ∧ Works s' i ∧ (s'.ln i).lm.store = (s.ln i).lm.store ∧
      (s'.ln i).lm.consistent = true := by
  have he : (s.ln i).lm.err = true := by
    unfold Works at hw; rwa [Bool.not_eq_false] at hw
  obtain ⟨n, s', hs⟩ := die_enabled hp h i he
  have hw' : Works s' i ∧ (s'.ln i).lm.store = (s.ln i).lm.store := by
    simp only [jstep] at hs
    split at hs
    · cases hd : (diskN p c0 i n s.cl).bind (fun cl => cstep p c0 cl (.crash i)) with
      | none => rw [hd] at hs; cases hs
      | some cl =>
        rw [hd] at hs
        cases hs
        unfold Works JSys.upd
        simp only [updF, if_true]
        unfold bootLm
        split
        · exact ⟨rfl, rfl⟩
        · constructor
          · unfold LogMgr.State.setSnapshot; dsimp only
            repeat' split
            all_goals rfl
          · unfold LogMgr.State.setSnapshot; dsimp only
            repeat' split
            all_goals rfl
    · cases hs
  exact ⟨n, s', hs, hw'.1, hw'.2, C76_consistent_partial hp (.tail _ h hs) i hw'.1⟩

/-- The truncation failed after one of two entries. -/
example : JReachable Dflt c3 s3 ∧ ¬ Works s3 1 ∧ Stored s3 1 3 (da 2 8) ∧ (s3.ln 1).lm.store.ents.length = 2 ∧ Works s4 1 :=
  ⟨s3_ok, by decide +kernel⟩

/-! ### What the state machines are given -/

/-- C76: when the state machine is to be given the next entry, `get_entry` has it, and it is the one the protocol
delivers: FSMCaller does not fail for want of an entry (fsm_caller.cpp:290-301). -/
theorem C76_apply_reads_partial (hp : COk p) {s : JSys N D} (h : JReachable p c0 s) (i : N) (hw : Works s i) :
    (s.ln i).lm.applied.index = (s.cl.node i).applied ∧
    ((s.cl.node i).applied < (s.cl.node i).bb.lastCommitted →
      ∃ e, Reads s i ((s.cl.node i).applied + 1) e ∧ Ev.applied i ((s.cl.node i).applied + 1) e ∈ (sApply i (s.cl.node i)).2.2) := by
  obtain ⟨hl, f⟩ := facts hp h i hw
  refine ⟨by rw [hl.app], fun hlt => ?_⟩
  have hcl := f.cl
  have hsa := f.sa
  have hfst := hl.fst
  have hlog : (s.cl.node i).applied < (s.cl.node i).log.length := by omega
  refine ⟨(s.cl.node i).log[(s.cl.node i).applied], ?_, ?_⟩
  · refine ((C76_get_entry_partial hp h i hw).1 _ _).mpr ⟨List.getElem?_eq_getElem hlog, ?_⟩
    unfold Compacted
    omega
  · unfold sApply
    rw [List.getElem?_eq_getElem hlog]
    exact List.mem_singleton.mpr rfl

example : ∃ s : JS, JReachable Dflt c3 s ∧ Works s 1 ∧ (s.cl.node 1).applied < (s.cl.node 1).bb.lastCommitted :=
  ⟨afterJ Dflt c3 initJ (one.take 18), afterJ_ok (by decide +kernel), by decide +kernel⟩

theorem diskN_csteps {i : N} : ∀ (n : Nat) {s s' : CSys N D}, diskN p c0 i n s = some s' → CSteps p c0 s s'
  | 0, s, s', h => by cases h; exact .refl
  | n + 1, s, s', h => by
    unfold diskN at h
    cases hc : cstep p c0 s (.disk i) with
    | none => rw [hc] at h; cases h
    | some s1 =>
      rw [hc] at h
      exact Traces.csteps_append (.tail _ .refl hc) (diskN_csteps n h)

theorem map_cl {o : Option (CSys N D)} {s s' : JSys N D} {i : N} {x : LNode N D} (h : o.map (fun cl => s.upd cl i x) = some s') :
    o = some s'.cl := by
  cases o with
  | none => cases h
  | some cl => cases h; rfl

/-- A joint step is some steps of the cluster. -/
theorem jstep_csteps {s s' : JSys N D} {a : JAct N D} (h : jstep p c0 s a = some s') : CSteps p c0 s.cl s'.cl := by
  have one : ∀ {cl : CSys N D} {i : N} {x : LNode N D}, cl = s.cl → some (s.upd cl i x) = some s' → CSteps p c0 s.cl s'.cl := by
    rintro cl i x rfl h
    cases h
    exact .refl
  cases a with
  | srv a cid =>
    simp only [jstep] at h
    split at h
    · exact .tail a .refl (map_cl h)
    · cases h
  | ask i cid => simp only [jstep] at h; split at h; exact one rfl h; cases h
  | buffered i => simp only [jstep] at h; split at h; cases h; exact one rfl h
  | clear i c => simp only [jstep] at h; split at h; exact one rfl h; cases h
  | begin i => simp only [jstep] at h; split at h; exact one rfl h; cases h
  | fin i =>
    simp only [jstep] at h
    split at h
    · split at h
      · cases h
      · exact one rfl h
    · cases h
  | skip i =>
    simp only [jstep] at h
    split at h
    · split at h
      · cases h
      · exact diskN_csteps _ (map_cl h)
    · cases h
  | flush i k =>
    simp only [jstep] at h
    split at h
    · split at h
      · exact diskN_csteps _ (map_cl h)
      · cases h
    · cases h
  | exec i =>
    simp only [jstep] at h
    split at h
    · split at h
      · exact diskN_csteps _ (map_cl h)
      · cases h
    · cases h
  | failAppend i k n =>
    simp only [jstep] at h
    split at h
    · split at h
      · exact one rfl h
      · cases h
    · cases h
  | failJob i n =>
    simp only [jstep] at h
    split at h
    · split at h
      · exact one rfl h
      · cases h
    · cases h
  | die i n =>
    simp only [jstep] at h
    split at h
    · cases hd : diskN p c0 i n s.cl with
      | none => rw [hd] at h; cases h
      | some cl =>
        rw [hd] at h
        cases hc : cstep p c0 cl (.crash i) with
        | none => 
          simp only [Option.bind_some, hc] at h
          cases h
        | some cl' =>
          simp only [Option.bind_some, hc] at h
          cases h
          exact .tail _ (diskN_csteps n hd) hc
    · cases h

theorem later {s s' : JSys N D} (h : JReachable p c0 s) (h' : JSteps p c0 s s') :
    JReachable p c0 s' ∧ CSteps p c0 s.cl s'.cl := by
  induction h' with
  | refl => exact ⟨h, .refl⟩
  | tail a _ hs ih => exact ⟨.tail a ih.1 hs, Traces.csteps_append ih.2 (jstep_csteps hs)⟩

/-- Whoever has applied an index has the entry that was applied there. -/
theorem applied_at (hp : COk p) {s : CSys N D} (h : CReachable p c0 s) {i j : N} {k : Nat} {e : Entry N D}
    (hi : Ev.applied i k e ∈ s.ev) (hk : k ≤ (s.node j).applied) : 1 ≤ k ∧ (s.node j).log[k - 1]? = some e := by
  obtain ⟨a, ha, hr⟩ := sim_reach hp h
  have hI := inv_reachable ha
  obtain ⟨h1, K, hK, hKe⟩ := hI.g.app i k e (hr.ev _ hi)
  refine ⟨h1, ?_⟩
  have hap := (hI.n j).ap
  have hac := (hI.n j).ac
  rw [(hr.node j).applied, (hr.node j).log] at hap hac
  have hKc : Committed a.g (lastTerm K) K := Or.inr ⟨K, hK, Nat.le_refl _, List.prefix_refl _⟩
  have hlt : k - 1 < K.length := (List.getElem?_eq_some_iff.mp hKe).1
  have htk : ((s.node j).log.take (s.node j).applied)[k - 1]? = some e := by
    rcases hI.g.toGBase.comm_total hac hKc with h' | h'
    · obtain ⟨r, rfl⟩ := h'
      rw [List.getElem?_append_left (by rw [List.length_take]; omega)] at hKe
      exact hKe
    · obtain ⟨r, hr'⟩ := h'
      rw [← hr', List.getElem?_append_left hlt]
      exact hKe
  rw [List.getElem?_take_of_lt (by omega)] at htk
  exact htk

/-- C76 (state machine safety, as LogManagers answer): when some node has given entry `e` to its state machine at
index `k`, then from then on `get_entry(k)` answers with `e` on every node that has applied `k`, unless the index is
compacted there. -/
theorem C76_applied_reads_partial (hp : COk p) {s s' : JSys N D} (h : JReachable p c0 s) (h' : JSteps p c0 s s')
    {i j : N} {k : Nat} {e : Entry N D} (hi : Ev.applied i k e ∈ s.cl.ev) (hw : Works s' j)
    (hk : (k : Int) ≤ (s'.ln j).lm.applied.index) : Reads s' j k e ∨ Compacted s' j k := by
  obtain ⟨hr', hc⟩ := later h h'
  have hai := (C76_apply_reads_partial hp hr' j hw).1
  obtain ⟨h1, h2⟩ := applied_at hp (jreach hp hr').1 (Cluster.ev_mono hc _ hi) (j := j) (by omega)
  obtain ⟨k, rfl⟩ : ∃ m, k = m + 1 := ⟨k - 1, by omega⟩
  rw [Nat.add_sub_cancel] at h2
  by_cases hcm : Compacted s' j (k + 1)
  · exact Or.inr hcm
  · exact Or.inl (((C76_get_entry_partial hp hr' j hw).1 k e).mpr ⟨h2, hcm⟩)

/-- 1 applied 7 at index 2; 2 has applied it, too, and 1 still after a compaction, an error and a restart. -/
example : Ev.applied 1 2 (da 2 7) ∈ s1.cl.ev ∧ Works s4 1 ∧ Works s4 2 ∧ 2 ≤ (s4.ln 1).lm.applied.index ∧ 2 ≤ (s4.ln 2).lm.applied.index ∧
    Reads s4 1 2 (da 2 7) ∧ Reads s4 2 2 (da 2 7) := by decide +kernel

/-- C76 (leader completeness, as LogManagers answer): what a node has applied is in the LogManager of every leader of
that or a later term, or compacted there. -/
theorem C76_leader_reads_partial (hp : COk p) {s s' : JSys N D} (h : JReachable p c0 s) (h' : JSteps p c0 s s')
    {i j : N} {k t : Nat} {e : Entry N D} (hk : (s.cl.node i).sm[k]? = some e) (hj : Cluster.LeadsC s'.cl j t)
    (ht : (s.cl.node i).term ≤ t) (hw : Works s' j) : Reads s' j (k + 1) e ∨ Compacted s' j (k + 1) := by
  obtain ⟨hr', hc⟩ := later h h'
  have f := (facts_reach hp (jreach hp h).1).1 i
  have hsm := f.sm
  have hap := f.ap
  have hlt : k < (s.cl.node i).applied := by
    have := (List.getElem?_eq_some_iff.mp hk).1
    rw [hsm, List.length_take] at this
    omega
  obtain ⟨e1, e2⟩ := Cluster.leader_completeness_partial (n := (s.cl.node i).applied) hp (jreach hp h).1 hc (Or.inr (Nat.le_refl _)) hj ht
  have hle : (s'.cl.node j).log[k]? = some e := by
    rw [hsm, ← e1, List.getElem?_take_of_lt hlt] at hk
    exact hk
  by_cases hcm : Compacted s' j (k + 1)
  · exact Or.inr hcm
  · exact Or.inl (((C76_get_entry_partial hp hr' j hw).1 k e).mpr ⟨hle, hcm⟩)

example : (s2.cl.node 1).sm[1]? = some (da 2 7) ∧ (s2.cl.node 1).term ≤ 3 ∧ Works s4 2 ∧ Reads s4 2 2 (da 2 7) ∧
    (s4.cl.node 2).state.leads = true ∧ (s4.cl.node 2).term = 3 := by decide +kernel

/-- C76 (log matching, as LogManagers answer): two LogManagers, at any two moments, that answer with entries of the
same term for one index answer with the same entry, and agree on every lower index neither has compacted. -/
theorem C76_reads_match_partial (hp : COk p) {s s' : JSys N D} (h : JReachable p c0 s) (h' : JSteps p c0 s s')
    {i j : N} {k : Nat} {e e' : Entry N D} (hw : Works s i) (hw' : Works s' j) (hi : Reads s i (k + 1) e)
    (hj : Reads s' j (k + 1) e') (ht : e.term = e'.term) :
    e = e' ∧ ∀ m x x', m ≤ k → Reads s i (m + 1) x → Reads s' j (m + 1) x' → x = x' := by
  obtain ⟨hr', hc⟩ := later h h'
  have r1 := (C76_get_entry_partial hp h i hw).1
  have r2 := (C76_get_entry_partial hp hr' j hw').1
  have hm := Cluster.log_matching_partial hp (jreach hp h).1 hc (Or.inl rfl) (Or.inl rfl)
    ((r1 k e).mp hi).1 ((r2 k e').mp hj).1 ht
  have all : ∀ m x x', m ≤ k → Reads s i (m + 1) x → Reads s' j (m + 1) x' → x = x' := by
    intro m x x' hmk hx hx'
    have a1 := ((r1 m x).mp hx).1
    have a2 := ((r2 m x').mp hx').1
    rw [← List.getElem?_take_of_lt (show m < k + 1 by omega), hm, List.getElem?_take_of_lt (by omega), a2] at a1
    exact (Option.some.inj a1).symm
  exact ⟨all k e e' (Nat.le_refl _) hi hj, all⟩

/-- Index 3 of term 3, at 1 and 2. -/
example : Reads s4 1 3 (ce 3 c3) ∧ Reads s4 2 3 (ce 3 c3) ∧ Reads s4 1 2 (da 2 7) ∧ Reads s4 2 2 (da 2 7) := by decide +kernel

/-- C76: the entries in a request a leader sends (read through `get_entry`, replicator.cpp:636-720) are what its
LogManager answers, unless compacted (then the code installs a snapshot instead, replicator.cpp:655-664). -/
theorem C76_sent_reads_partial (hp : COk p) {s s' : JSys N D} (h : JReachable p c0 s) {i : N} {f : RFrame N} {cnt cid : Nat}
    (hw : Works s i) (hs : jstep p c0 s (.srv (.replRead i f cnt) cid) = some s') {t prev pt cm : Nat} {l to : N}
    {es : List (Entry N D)} (hm : CMsg.aeReq t l to prev pt es cm ∈ s'.cl.msgs) (hn : CMsg.aeReq t l to prev pt es cm ∉ s.cl.msgs) :
    l = i ∧ ∀ k e, es[k]? = some e → Reads s i (prev + k + 1) e ∨ Compacted s i (prev + k + 1) := by
  simp only [jstep] at hs
  split at hs
  · have hc := map_cl hs
    have hms : s'.cl.msgs = (ceff p c0 (s.cl.node i) (.replRead i f cnt)).2.1 ++ s.cl.msgs := by
      unfold cstep at hc
      split at hc
      · have := Option.some.inj hc
        rw [← this]
        rfl
      · cases hc
    rw [hms] at hm
    rcases List.mem_append.mp hm with hm | hm
    · simp only [ceff, sReplRead] at hm
      split at hm
      · rw [List.mem_singleton] at hm
        injection hm with a1 a2 a3 a4 a5 a6 a7
        refine ⟨a2, ?_⟩
        intro k e he
        rw [a6, ← a4] at he
        have hlt := (List.getElem?_eq_some_iff.mp he).1
        rw [List.length_take] at hlt
        rw [List.getElem?_take_of_lt (by omega), List.getElem?_drop] at he
        by_cases hcm : Compacted s i (prev + k + 1)
        · exact Or.inr hcm
        · exact Or.inl (((C76_get_entry_partial hp h i hw).1 (prev + k) e).mpr ⟨he, hcm⟩)
      · cases hm
    · exact absurd hm hn
  · cases hs

/-- The request of 2 with the entry of term 3. -/
example : ∃ s : JS, JReachable Dflt c3 s ∧ Works s 2 ∧
    ∃ s', jstep Dflt c3 s (.srv (.replRead 2 (.send 3 1 2 2 2) 1) 0) = some s' ∧ CMsg.aeReq 3 2 1 2 2 [ce 3 c3] 2 ∈ s'.cl.msgs ∧
      CMsg.aeReq 3 2 1 2 2 [ce 3 c3] 2 ∉ s.cl.msgs := by
  refine ⟨afterJ Dflt c3 s2 (three.take 6), jsteps_append s2_ok (afterJ_ok (by decide +kernel)), by decide +kernel, ?_⟩
  have some_getD : ∀ (o : Option JS) (d : JS), o.isSome = true → o = some (o.getD d) := by
    intro o d h
    cases o with
    | none => cases h
    | some x => rfl
  exact ⟨_, some_getD _ s2 (by decide +kernel), by decide +kernel, by decide +kernel⟩

/-! ### What the guards exclude -/

/-- The request that is delayed in `late`. -/
def lateReq : CAct Nat Nat := .append 2 2 1 0 0 [ce 2 c3, da 2 7, da 2 8, da 2 9] 0 true false

/-- C76, missing part: a delayed request from index 1, which the leader really sent, reaches a follower that has
compacted its log meanwhile. LogManager takes the compacted indexes for a conflict, refuses to truncate below the
applied index with LOG(FATAL), and appends the entries all the same: `get_entry(4)` then answers with the entry of
index 1, where the protocol's log has 9 (log_manager.cpp:372-398). -/
theorem C76_delayed_request_corrupts_log :
    ∃ s : JS, JReachable Dflt c3 s ∧ Works s 2 ∧ (s.ln 2).lm.first = 3 ∧ cpre Dflt c3 s.cl lateReq = true ∧
      frontOk (s.ln 2).lm 0 [ce 2 c3, da 2 7, da 2 8, da 2 9] = false ∧
      (ceff Dflt c3 (s.cl.node 2) lateReq).1.log[3]? = some (da 2 9) ∧
      (lmEff Dflt c3 (s.cl.node 2) (s.ln 2).lm 0 lateReq).getEntry 4 = some (atIndex 1 (ce 2 c3)) :=
  ⟨afterJ Dflt c3 initJ late, afterJ_ok (by decide +kernel), by decide +kernel⟩

/-- C76, missing part: a node with a slow disk whose entries of term 3 were replaced by entries of term 2 (sent by
the leader of term 4). `_disk_id` is still that of the old entries, so clear_memory_logs removes the new ones from
memory before they are stored: node 1 has applied 7 at index 2, as everyone, and `get_entry(2)` answers with 8, which
was never committed (log_manager.cpp:125-146, 801-821). -/
theorem C76_slow_disk_reads_replaced_entry :
    ∃ s : JS, JReachable Dflt c3 s ∧ Works s 1 ∧ Ev.applied 1 2 (da 2 7) ∈ s.cl.ev ∧ Reads s 1 2 (da 2 7) ∧
      ⟨1, 2⟩ ∈ (s.ln 1).lm.clears ∧ ⟨2, 2⟩ ∈ (s.ln 1).lm.clears ∧ safeB (s.ln 1).lm ⟨1, 2⟩ = false ∧
      (((s.ln 1).lm.clear ⟨1, 2⟩).clear ⟨2, 2⟩).getEntry 2 = some (atIndex 2 (da 3 8)) :=
  ⟨afterJ Dflt c3 initJ stale, afterJ_ok (by decide +kernel), by decide +kernel⟩

end Braft.Props.LogStack
