import Verif.Node.ConfCtxInv
import Verif.Props.Ballot
/-
C30: membership changes at one node. `Hist` ranges over all sequences of requests (add_peer, remove_peer, change_peers,
reset_peers), results of catching up, commits and failures of configuration entries, elections, step-downs, transfers
of leadership and shutdown, with every result of add_replicator and of the log.

The history of a node is in the state: `reqs` the configurations asked for, in order (request `i` is the `i`-th),
`ran` the closures of requests that have run, with their status, `subs` the configuration entries submitted as leader
(newest first, with the term), `comm` those that were reported committed. `Legal` (Verif/Node/ConfCtxInv.lean) says
which entry may follow which.
-/
set_option linter.unusedSectionVars false
set_option linter.unusedVariables false

namespace Braft.Props
open Braft.ConfCtx
variable {P : Type} [DecidableEq P]

/-- The requests whose closure has run. -/
def answered (s : State P) : List Nat := s.ran.map Prod.fst

/-- C30. No closure of a request runs twice, none runs that was not given, and one at most has not run yet. -/
theorem confchange_each_once {s : State P} (h : Hist s) :
    (answered s).Nodup ∧ (∀ i ∈ answered s, i < s.reqs.length) ∧
    ∃ rest : List Nat, rest.length ≤ 1 ∧ ∀ i, i < s.reqs.length → i ∉ answered s → i ∈ rest := by
  have hp := h.inv.1.base.perm
  have hn : (answered s ++ s.done.toList).Nodup := hp.nodup_iff.mpr List.nodup_range
  refine ⟨(List.nodup_append.mp hn).1, ?_, s.done.toList, ?_, ?_⟩
  · intro i hi
    exact List.mem_range.mp (hp.subset (List.mem_append_left _ hi))
  · cases s.done <;> simp
  · intro i hi hni
    rcases List.mem_append.mp (hp.symm.subset (List.mem_range.mpr hi)) with h1 | h1
    · exact absurd h1 hni
    · exact h1

/-- C30. A change in progress ends with its closure: with no change in progress all closures have run. A node that
does not lead, or that is handing over leadership, has none in progress. -/
theorem confchange_all_answered {s : State P} (h : Hist s) :
    (s.stage = .none → ∀ i, i < s.reqs.length → i ∈ answered s) ∧ (s.role ≠ .leader → s.stage = .none) := by
  refine ⟨?_, ?_⟩
  · intro hs i hi
    have hd := (h.inv.1.phase.idle hs).1
    have hp := h.inv.1.base.perm
    rw [hd, Option.toList_none, List.append_nil] at hp
    exact hp.symm.subset (List.mem_range.mpr hi)
  · intro hr
    by_cases hs : s.stage = .none
    · exact hs
    · exact absurd (h.inv.1.phase.busy_leader hs) hr

/-- C30. OK is reported only when an entry with the configuration asked for, and no old one, has been committed. -/
theorem confchange_ok_committed {s : State P} (h : Hist s) {i : Nat} (hi : (i, Code.ok) ∈ s.ran) :
    ∃ c t d, s.reqs[i]? = some c ∧ (t, (⟨d, none⟩ : Entry P)) ∈ s.comm ∧ ∀ p, p ∈ d ↔ p ∈ c := by
  obtain ⟨c, t, d, h1, h2, h3⟩ := h.inv.1.base.oks i hi
  refine ⟨c, t, d, h1, h2, ?_⟩
  unfold sameSet at h3
  rw [Bool.and_eq_true, decide_eq_true_eq, decide_eq_true_eq] at h3
  exact fun p => ⟨h3.1 p, h3.2 p⟩

/-- C30. A request at a node that does not lead is refused with EPERM (EBUSY while it hands over leadership), one at a
leader with a change in progress with EBUSY; nothing else happens. -/
theorem confchange_refused (s : State P) (newc : List P) (addOk : P → Bool) (logOk : Bool)
    (h : s.role ≠ .leader ∨ s.stage ≠ .none) :
    s.change newc addOk logOk =
      { s with reqs := s.reqs ++ [newc],
               ran := s.ran ++ [(s.reqs.length, if s.role = .leader ∨ s.role = .transferring then .ebusy else .eperm)] } := by
  unfold State.change State.answer
  dsimp only
  by_cases hr : s.role = .leader
  · rw [if_neg (by simp [hr]), if_pos (by unfold State.busy; simpa using h.resolve_left (by simp [hr])), if_pos (Or.inl hr)]
  · rw [if_pos hr]
    by_cases ht : s.role = .transferring
    · rw [if_pos ht, if_pos (Or.inr ht)]
    · rw [if_neg ht, if_neg (by simp [hr, ht])]

theorem chain_at {comm : List (Nat × Entry P)} : ∀ {l1 l2 : List (Nat × Entry P)} {a b : Nat × Entry P},
    Chain comm (l1 ++ b :: a :: l2) → a.1 ≤ b.1 ∧ (b.1 = a.1 → a ∈ comm ∧ Legal a.2 b.2)
  | [], l2, a, b, h => h.1
  | [c], l2, a, b, h => chain_at (l1 := []) h.2
  | c :: d :: l1, l2, a, b, h => chain_at (l1 := d :: l1) h.2

/-- C30. One change at a time, through joint entries: a leader submits a configuration entry only after the one before
it, of the same term, has committed. After an entry with two configurations comes one with the new configuration
alone; after an entry with one configuration comes one that contains this as the old one besides a new one, or one
with a configuration that differs in one peer. -/
theorem confchange_chain {s : State P} (h : Hist s) {l1 l2 : List (Nat × Entry P)} {a b : Nat × Entry P}
    (he : s.subs = l1 ++ b :: a :: l2) : a.1 ≤ b.1 ∧ (b.1 = a.1 → a ∈ s.comm ∧ Legal a.2 b.2) := by
  have := h.inv.1.base.chain
  rw [he] at this
  exact chain_at this

/-- C30. A leader with no change in progress has a single configuration, committed in its term, and replicates to its
members only. -/
theorem confchange_idle_leader {s : State P} (h : Hist s) (hr : s.role = .leader ∨ s.role = .transferring)
    (hs : s.stage = .none) :
    s.old = [] ∧ (s.term, (⟨s.conf, none⟩ : Entry P)) ∈ s.comm ∧ ∀ p ∈ s.repl, p ≠ s.self → p ∈ s.conf := by
  have hph := h.inv.1.phase
  have hl : Lead s := by
    unfold Phase at hph
    rcases hr with hr | hr <;> rw [hr] at hph <;> exact hph
  unfold Lead at hl
  rw [hs] at hl
  exact ⟨hl.2.1.old, hl.2.1.comm, hl.2.2.1⟩

/-- C30. While peers catch up the configuration in force is the committed one, and the leader has submitted nothing
since. -/
theorem confchange_catching {s : State P} (h : Hist s) (hs : s.stage = .catching) :
    s.old = [] ∧ (s.term, (⟨s.conf, none⟩ : Entry P)) ∈ s.comm ∧ s.subs.head? = some (s.term, ⟨s.conf, none⟩) ∧ s.olds = s.conf := by
  have hph := h.inv.1.phase
  have hr := hph.busy_leader (by rw [hs]; simp)
  unfold Phase at hph
  rw [hr] at hph
  dsimp only at hph
  unfold Lead at hph
  rw [hs] at hph
  obtain ⟨rest, hh⟩ := hph.2.2.1.head
  exact ⟨hph.2.2.1.old, hph.2.2.1.comm, by rw [hh]; rfl, hph.2.2.2.1⟩

/-- C30. No CHECK of the code modelled fails. -/
theorem confchange_no_check_fails {s : State P} (h : Hist s) : s.bad = false := h.inv.1.base.good

/-- C30. A peer that does not catch up ends the change: its closure runs with ECATCHUP, the configuration stays, no
entry is submitted. -/
theorem confchange_catchup_fails {s : State P} (h : Hist s) (hs : s.stage = .catching) {k : Nat} {p : P}
    (hk : s.waits[k]? = some (p, s.term, s.version)) (logOk : Bool) :
    (s.caughtUp k .fail logOk).conf = s.conf ∧ (s.caughtUp k .fail logOk).old = s.old ∧
    (s.caughtUp k .fail logOk).subs = s.subs ∧ (s.caughtUp k .fail logOk).stage = .none ∧
    (s.caughtUp k .fail logOk).ran = s.ran ++ (s.done.map (fun i => (i, Code.ecatchup))).toList ∧
    (∀ q ∈ (s.caughtUp k .fail logOk).repl, q ≠ s.self → q ∈ s.conf) := by
  have hph := h.inv.1.phase
  have hr := hph.busy_leader (by rw [hs]; simp)
  have hinv : Hist (s.caughtUp k .fail logOk) := h.caughtUp k .fail logOk
  have hE : s.caughtUp k .fail logOk = ({ s with waits := s.waits.eraseIdx k } : State P).reset (some .ecatchup) := by
    unfold State.caughtUp
    rw [hk]
    dsimp only
    rw [if_neg (by simp [hr])]
    unfold State.ctxCaughtUp
    rw [if_neg (by simp)]
    dsimp only
    rw [if_neg (by decide), check_true _ (by simp [hs])]
  have hx := reset_same ({ s with waits := s.waits.eraseIdx k } : State P) (some .ecatchup)
  have e1 : (s.caughtUp k .fail logOk).conf = s.conf := by rw [hE]; exact hx.2.2.1
  have e2 : (s.caughtUp k .fail logOk).stage = .none := by rw [hE]; exact hx.2.2.2.2.2.2.2.1
  have e3 : (s.caughtUp k .fail logOk).role = .leader := by rw [hE, hx.1]; exact hr
  have e4 : (s.caughtUp k .fail logOk).self = s.self := by rw [hE]; exact hx.2.2.2.2.2.2.2.2.1
  refine ⟨e1, by rw [hE]; exact hx.2.2.2.1, by rw [hE]; exact hx.2.2.2.2.2.1, e2, ?_, ?_⟩
  · rw [hE]
    unfold State.reset
    rw [if_neg (by rw [hs]; simp)]
    rfl
  · have := (confchange_idle_leader hinv (Or.inl e3) e2).2.2
    rw [e1, e4] at this
    exact this

/-- C30. The entry of a change is submitted only when every added peer has caught up: in the step in which a leader
leaves the catching-up stage with an entry, the last peer it waits for reports success. -/
theorem confchange_needs_catchup (s : State P) (hs : s.stage = .catching) (k : Nat) (c : Caught) (logOk : Bool)
    (hx : (s.caughtUp k c logOk).subs ≠ s.subs) :
    c = .ok ∧ ∃ p, s.waits[k]? = some (p, s.term, s.version) ∧ ∀ q ∈ s.adding, q = p := by
  unfold State.caughtUp at hx
  cases hk : s.waits[k]? with
  | none => rw [hk] at hx; exact absurd rfl hx
  | some w =>
    obtain ⟨p, t, v⟩ := w
    rw [hk] at hx
    dsimp only at hx
    by_cases hl : s.role ≠ .leader ∨ t ≠ s.term
    · rw [if_pos hl] at hx; exact absurd rfl hx
    · rw [if_neg hl] at hx
      have ht : t = s.term := by
        by_cases h : t = s.term
        · exact h
        · exact absurd (Or.inr h) hl
      subst ht
      cases c with
      | retry => exact absurd rfl hx
      | fail =>
        dsimp only at hx
        unfold State.ctxCaughtUp at hx
        by_cases hv : v ≠ s.version
        · rw [if_pos hv] at hx; exact absurd rfl hx
        · rw [if_neg hv] at hx
          dsimp only at hx
          rw [if_neg (show ¬ (false = true) by decide), (reset_same _ _).2.2.2.2.2.1] at hx
          exact absurd rfl hx
      | ok =>
        dsimp only at hx
        unfold State.ctxCaughtUp at hx
        by_cases hv : v ≠ s.version
        · rw [if_pos hv] at hx; exact absurd rfl hx
        · rw [if_neg hv] at hx
          have hv : v = s.version := Decidable.not_not.mp hv
          subst hv
          dsimp only at hx
          rw [if_pos rfl] at hx
          refine ⟨rfl, p, rfl, ?_⟩
          by_cases he : (s.adding.filter (fun q => decide (q ≠ p))).isEmpty = true
          · intro q hq
            have := List.filter_eq_nil_iff.mp (List.isEmpty_iff.mp he) q hq
            simpa using this
          · exfalso
            apply hx
            rw [if_neg (by exact he)]
            rfl

/-- C30. Losing leadership ends the change: its closure runs with EPERM. -/
theorem confchange_step_down {s : State P} (h : Hist s) (hs : s.stage ≠ .none) (term : Nat) :
    (s.stepDown term).stage = .none ∧ (s.stepDown term).role = .follower ∧
    (s.stepDown term).ran = s.ran ++ (s.done.map (fun i => (i, Code.eperm))).toList ∧ (s.stepDown term).conf = s.conf := by
  have hr := h.inv.1.phase.busy_leader hs
  have hx := reset_same ({ s with role := Role.follower } : State P) none
  unfold State.stepDown
  rw [if_neg (by rw [hr]; decide)]
  refine ⟨hx.2.2.2.2.2.2.2.1, hx.1, ?_, hx.2.2.1⟩
  show (State.reset ({ s with role := Role.follower } : State P) none).ran = _
  unfold State.reset
  rw [if_neg (by simpa using hs)]
  rfl

/-! Concrete histories. -/

def run0 : State Nat := ((State.init 1 4 [1, 2, 3] []).elect.becomeLeader (fun _ => true) true).entryDone 0 true true
theorem run0_hist : Hist run0 := ((Hist.init 1 4 [1, 2, 3] [] (by decide)).elect.becomeLeader _ _).entryDone _ _ _

/-- A leader of {1, 2, 3} is asked for {1, 4, 5}: 4 and 5 catch up, then a joint entry, then the new configuration. -/
def runA : State Nat := (run0.change [1, 4, 5] (fun _ => true) true).change [1, 2] (fun _ => true) true
theorem runA_hist : Hist runA := (run0_hist.change [1, 4, 5] (by decide) _ _).change [1, 2] (by decide) _ _

def run1 : State Nat := (runA.caughtUp 1 .ok true).caughtUp 0 .ok true
theorem run1_hist : Hist run1 := (runA_hist.caughtUp _ _ _).caughtUp _ _ _

def run2 : State Nat := (run1.entryDone 0 true true).entryDone 0 true true
theorem run2_hist : Hist run2 := (run1_hist.entryDone _ _ _).entryDone _ _ _

example : run1.stage = .joint ∧ run1.ran = [(1, .ebusy)] ∧ run1.conf = [1, 4, 5] ∧ run1.old = [1, 2, 3] ∧ run1.repl = [5, 4, 2, 3] := by decide

example : run2.stage = .none ∧ run2.role = .leader ∧ run2.ran = [(1, .ebusy), (0, .ok)] ∧ run2.conf = [1, 4, 5] ∧ run2.old = [] ∧ run2.repl = [5, 4] ∧
    run2.subs = [(5, ⟨[1, 4, 5], none⟩), (5, ⟨[1, 4, 5], some [1, 2, 3]⟩), (5, ⟨[1, 2, 3], none⟩)] ∧ run2.comm = run2.subs := by decide

/-- A peer that fails to catch up. -/
def run3 : State Nat := (run2.addPeer 6 (fun _ => true) true)
theorem run3_hist : Hist run3 := run2_hist.addPeer _ _ _
example : run3.stage = .catching ∧ run3.waits[0]? = some (6, run3.term, run3.version) ∧ run3.done = some 2 ∧
    (run3.caughtUp 0 .fail true).ran = [(1, .ebusy), (0, .ok), (2, .ecatchup)] ∧ (run3.stepDown 9).ran = [(1, .ebusy), (0, .ok), (2, .eperm)] := by decide

/-- The leader removes itself: it steps down when its entry has committed. -/
example : ((run2.removePeer 1 (fun _ => true) true).entryDone 0 true true).role = .follower ∧
    ((run2.removePeer 1 (fun _ => true) true).entryDone 0 true true).ran = [(1, .ebusy), (0, .ok), (2, .ok)] := by decide

/-- Finding: an empty configuration is accepted. The only member removes itself: the leader submits an entry with the
empty configuration, which no ballot ever grants (C09), so the change ends only when the node loses leadership, and it
is left without configuration. -/
theorem confchange_to_empty_witness :
    ∃ (s : State Nat) (p : Nat), Hist s ∧ s.role = .leader ∧ s.stage = .none ∧
      (s.removePeer p (fun _ => true) true).stage = .stable ∧
      (s.removePeer p (fun _ => true) true).subs.head? = some (s.term, ⟨[], none⟩) ∧
      (s.removePeer p (fun _ => true) true).conf = [] ∧
      ∀ gs : List (Nat × PosHint), (Ballot.grantAll (Ballot.init ([] : List Nat) none) gs).granted = false :=
  ⟨(((State.init 1 0 [1] []).elect.becomeLeader (fun _ => true) true).entryDone 0 true true), 1,
    ((Hist.init 1 0 [1] [] (by decide)).elect.becomeLeader _ _).entryDone _ _ _, by decide, by decide, by decide, by decide, by decide,
    fun gs => C09_empty_never_granted [] none (by decide) (by simp) (Or.inl rfl) gs⟩

end Braft.Props
