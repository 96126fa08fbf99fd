import Verif.Ballot
import Verif.ClosureQueue
/-
Model of src/braft/ballot_box.{h,cpp}. Each method holds `_mutex` for its whole effect (the
`on_committed` call after unlocking is an output), so a method is one atomic step. Indexes are
`Nat`; `_pending_index == 0` means "not leader".
-/
set_option linter.unusedSectionVars false
set_option linter.unusedSimpArgs false
set_option linter.unusedVariables false

namespace Braft
universe u v

/-- ballot_box.h:92-98, members of `BallotBox`. -/
structure BallotBox (P : Type u) (C : Type v) where
  lastCommitted : Nat := 0
  pending : Nat := 0
  queue : List (Ballot P) := []
  closures : ClosureQueue C := {}

namespace BallotBox
variable {P : Type u} [DecidableEq P] {C : Type v}

/-- Return codes of the methods. -/
inductive Rc | ok | einval | erange | fail
deriving DecidableEq, Repr

/-- ballot_box.cpp:66-73, the loop of `commit_at` over `_pending_meta_queue`. The loop variable
`log_index` runs over `[start_at, last]`; elements outside that range are untouched. `idx` is the
log index of the head of the list, `lc` the accumulator `last_committed_index`. -/
def grantRange (start last : Nat) (peer : P) :
    (idx : Nat) → List (Ballot P) → PosHint → (lc : Nat) → List (Ballot P) × Nat
  | _, [], _, lc => ([], lc)
  | idx, b :: rest, hint, lc =>
    if start ≤ idx ∧ idx ≤ last then
      let (b', hint') := b.grantHint peer hint
      let lc' := if b'.granted then idx else lc
      let (rest', lc'') := grantRange start last peer (idx + 1) rest hint' lc'
      (b' :: rest', lc'')
    else
      let (rest', lc'') := grantRange start last peer (idx + 1) rest hint lc
      (b :: rest', lc'')

/-- ballot_box.cpp:49-96 `commit_at`. The second component is the list of `on_committed` calls. -/
def commitAt (bb : BallotBox P C) (first last : Nat) (peer : P) :
    BallotBox P C × Rc × List Nat :=
  if bb.pending = 0 then (bb, .einval, [])
  else if last < bb.pending then (bb, .ok, [])
  else if bb.pending + bb.queue.length ≤ last then (bb, .erange, [])
  else
    let start := max bb.pending first
    let (q, lc) := grantRange start last peer bb.pending bb.queue {} 0
    if lc = 0 then ({ bb with queue := q }, .ok, [])
    else
      ({ bb with queue := q.drop (lc + 1 - bb.pending), pending := lc + 1, lastCommitted := lc },
        .ok, [lc])

/-- ballot_box.cpp:98-107 `clear_pending_tasks`; also returns the closures failed with EPERM. -/
def clearPendingTasks (bb : BallotBox P C) : BallotBox P C × List C :=
  let (cq, failed) := bb.closures.clear
  ({ bb with queue := [], pending := 0, closures := cq }, failed)

/-- ballot_box.cpp:109-119 `reset_pending_index` (the two CHECKs are not fatal by default; the
model's callers are restricted where a theorem needs them). -/
def resetPendingIndex (bb : BallotBox P C) (i : Nat) : BallotBox P C :=
  { bb with pending := i, closures := bb.closures.resetFirstIndex i }

/-- ballot_box.cpp:121-135 `append_pending_task`. -/
def appendPendingTask (bb : BallotBox P C) (conf : List P) (old : Option (List P))
    (c : Option C) : BallotBox P C :=
  { bb with queue := bb.queue ++ [Ballot.init conf old], closures := bb.closures.append c }

/-- ballot_box.cpp:137-156 `set_last_committed_index`. -/
def setLastCommittedIndex (bb : BallotBox P C) (i : Nat) : BallotBox P C × Rc × List Nat :=
  if bb.pending ≠ 0 ∨ ¬ bb.queue.isEmpty then (bb, .fail, [])
  else if i < bb.lastCommitted then (bb, .einval, [])
  else if bb.lastCommitted < i then ({ bb with lastCommitted := i }, .ok, [i])
  else (bb, .ok, [])

/-! ## Lemmas about the loop -/

theorem grantRange_length (start last : Nat) (peer : P) (idx : Nat) (q : List (Ballot P))
    (hint : PosHint) (lc : Nat) :
    (grantRange start last peer idx q hint lc).1.length = q.length := by
  induction q generalizing idx hint lc with
  | nil => simp [grantRange]
  | cons b rest ih =>
    unfold grantRange
    split
    · simp [ih]
    · simp [ih]

/-- A per-element invariant: if each ballot satisfies `Ballot.Inv` for its own configuration and
granted set, then so does each after the loop, with `peer` added for the indexes in range. -/
theorem grantRange_inv (start last : Nat) (peer : P)
    (ents : Nat → List P × Option (List P)) (S : Nat → P → Bool)
    (hnd : ∀ i, (ents i).1.Nodup) (hndo : ∀ i oc, (ents i).2 = some oc → oc.Nodup)
    (idx : Nat) (q : List (Ballot P)) (hint : PosHint) (lc : Nat)
    (h : ∀ k (hk : k < q.length), Ballot.Inv (ents (idx + k)).1 (ents (idx + k)).2 (S (idx + k)) q[k]) :
    ∀ k (hk : k < (grantRange start last peer idx q hint lc).1.length),
      Ballot.Inv (ents (idx + k)).1 (ents (idx + k)).2
        (fun p => S (idx + k) p || (decide (start ≤ idx + k ∧ idx + k ≤ last) && p == peer))
        ((grantRange start last peer idx q hint lc).1[k]) := by
  induction q generalizing idx hint lc with
  | nil => intro k hk; simp [grantRange] at hk
  | cons b rest ih =>
    have hb := h 0 (by simp)
    have hrest : ∀ k (hk : k < rest.length),
        Ballot.Inv (ents (idx + 1 + k)).1 (ents (idx + 1 + k)).2 (S (idx + 1 + k)) rest[k] := by
      intro k hk
      have := h (k + 1) (by simpa using hk)
      simpa [Nat.add_assoc, Nat.add_comm 1 k] using this
    intro k hk
    unfold grantRange at hk ⊢
    split at hk <;> rename_i hr
    · simp only [hr, and_self, ↓reduceIte] at hk ⊢
      cases k with
      | zero =>
        simp only [Nat.add_zero, List.getElem_cons_zero]
        have hs := Ballot.inv_grantHint (hnd idx) (hndo idx) hb peer hint
        simpa [hr] using hs
      | succ k =>
        have := ih (idx + 1) (b.grantHint peer hint).2
          (if (b.grantHint peer hint).1.granted then idx else lc) hrest k (by simpa using hk)
        simpa [Nat.add_assoc, Nat.add_comm 1 k] using this
    · simp only [hr, ↓reduceIte] at hk ⊢
      cases k with
      | zero => simpa [hr] using hb
      | succ k =>
        have := ih (idx + 1) hint lc hrest k (by simpa using hk)
        simpa [Nat.add_assoc, Nat.add_comm 1 k] using this

/-- The accumulator is the last index in range whose ballot became granted (or the initial
accumulator). Granted-ness outside the range is unchanged. -/
theorem grantRange_lc (start last : Nat) (peer : P) (idx : Nat) (q : List (Ballot P))
    (hint : PosHint) (lc : Nat) :
    let r := grantRange start last peer idx q hint lc
    (r.2 = lc ∧ (∀ k (hk : k < r.1.length), start ≤ idx + k → idx + k ≤ last →
        r.1[k].granted = false)) ∨
    (∃ k, ∃ hk : k < r.1.length, r.2 = idx + k ∧ start ≤ idx + k ∧ idx + k ≤ last ∧
      r.1[k].granted = true ∧
      ∀ j (hj : j < r.1.length), k < j → idx + j ≤ last → r.1[j].granted = false) := by
  induction q generalizing idx hint lc with
  | nil => left; simp [grantRange]
  | cons b rest ih =>
    unfold grantRange
    by_cases hr : start ≤ idx ∧ idx ≤ last
    · simp only [hr, and_self, ↓reduceIte]
      rcases ih (idx + 1) (b.grantHint peer hint).2
          (if (b.grantHint peer hint).1.granted then idx else lc) with ⟨h1, h2⟩ | ⟨k, hk, h1, h2, h3, h4, h5⟩
      · by_cases hg : (b.grantHint peer hint).1.granted = true
        · right
          refine ⟨0, by simp, ?_, ?_, ?_, ?_, ?_⟩
          · simp only [hg, if_true] at h1; simpa [hg] using h1
          · simpa using hr.1
          · simpa using hr.2
          · simpa using hg
          · intro j hj h0 hl
            cases j with
            | zero => omega
            | succ j =>
              have := h2 j (by simpa using hj) (by omega) (by omega)
              simpa using this
        · left
          have hgf : (b.grantHint peer hint).1.granted = false := by simpa using hg
          simp only [hgf] at h1 h2 ⊢
          refine ⟨h1, ?_⟩
          intro k hk a1 a2
          cases k with
          | zero => simpa using hgf
          | succ k => exact h2 k (by simpa using hk) (by omega) (by omega)
      · right
        refine ⟨k + 1, by simpa using hk, by simpa [Nat.add_assoc, Nat.add_comm 1 k] using h1,
          by omega, by omega, by simpa using h4, ?_⟩
        intro j hj hlt hl
        cases j with
        | zero => omega
        | succ j => exact h5 j (by simpa using hj) (by omega) (by omega)
    · simp only [hr, ↓reduceIte]
      rcases ih (idx + 1) hint lc with ⟨h1, h2⟩ | ⟨k, hk, h1, h2, h3, h4, h5⟩
      · left
        refine ⟨h1, ?_⟩
        intro k hk a1 a2
        cases k with
        | zero => exact absurd (⟨by simpa using a1, by simpa using a2⟩ : start ≤ idx ∧ idx ≤ last) hr
        | succ k => exact h2 k (by simpa using hk) (by omega) (by omega)
      · right
        refine ⟨k + 1, by simpa using hk, by simpa [Nat.add_assoc, Nat.add_comm 1 k] using h1,
          by omega, by omega, by simpa using h4, ?_⟩
        intro j hj hlt hl
        cases j with
        | zero => omega
        | succ j => exact h5 j (by simpa using hj) (by omega) (by omega)

/-! ## Call histories -/

/-- Calls made on a BallotBox and its closure queue by its users (node.cpp, replicator.cpp,
log_manager.cpp closures, fsm_caller.cpp). -/
inductive Op (P : Type u) (C : Type v)
  | reset (i : Nat)
  | append (conf : List P) (old : Option (List P)) (c : Option C)
  | commit (first last : Nat) (peer : P)
  | clear
  | setCommitted (i : Nat)
  | pop (i : Nat)

/-- Bookkeeping of a history, used only to state properties: what was appended since the last
`reset_pending_index(base)`, the `commit_at` calls that returned 0 since then, and all
`on_committed` notifications so far. -/
structure Hist (P : Type u) where
  base : Nat := 0
  ents : List (List P × Option (List P)) := []
  acks : List (Nat × Nat × P) := []
  notes : List Nat := []

/-- The peers that acknowledged index `i` according to the history. -/
def Hist.ackers (h : Hist P) (i : Nat) : P → Bool :=
  fun p => h.acks.any (fun a => decide (a.1 ≤ i ∧ i ≤ a.2.1) && p == a.2.2)

/-- The configuration pair under which index `i` was appended. -/
def Hist.ent (h : Hist P) (i : Nat) : List P × Option (List P) :=
  h.ents.getD (i - h.base) ([], none)

/-- One call, or `none` if the call violates a CHECK of the code (ballot_box.cpp:111-115, 130),
i.e. is outside the contract. Configurations are sets, hence duplicate free. -/
def step (s : BallotBox P C × Hist P) (op : Op P C) : Option (BallotBox P C × Hist P) :=
  let (bb, h) := s
  match op with
  | .reset i =>
    if bb.pending = 0 ∧ bb.queue.isEmpty ∧ bb.lastCommitted < i then
      some (bb.resetPendingIndex i, { h with base := i, ents := [], acks := [] })
    else none
  | .append conf old c =>
    if 0 < bb.pending ∧ conf.Nodup ∧ (∀ oc ∈ old, oc.Nodup) then
      some (bb.appendPendingTask conf old c, { h with ents := h.ents ++ [(conf, old)] })
    else none
  | .commit first last peer =>
    match bb.commitAt first last peer with
    | (bb', .ok, ns) => some (bb', { h with acks := h.acks ++ [(first, last, peer)],
                                            notes := h.notes ++ ns })
    | (bb', _, ns) => some (bb', { h with notes := h.notes ++ ns })
  | .clear => some (bb.clearPendingTasks.1, h)
  | .setCommitted i =>
    let (bb', _, ns) := bb.setLastCommittedIndex i
    some (bb', { h with notes := h.notes ++ ns })
  | .pop i =>
    -- FSMCaller only pops up to an index it was told is committed (fsm_caller.cpp:263-290)
    if i ≤ bb.lastCommitted then some ({ bb with closures := (bb.closures.popUntil i).1 }, h)
    else none

/-- States reachable from a fresh BallotBox by any sequence of calls within the contract. -/
inductive Reach : BallotBox P C × Hist P → Prop
  | init : Reach ({}, {})
  | step {s s' op} : Reach s → step s op = some s' → Reach s'

/-- Inductive invariant. -/
structure SysInv (s : BallotBox P C × Hist P) : Prop where
  follower : s.1.pending = 0 → s.1.queue = [] ∧ s.1.closures.queue = []
  base_le : s.1.pending ≠ 0 → 0 < s.2.base ∧ s.2.base ≤ s.1.pending
  len : s.1.pending ≠ 0 → s.1.pending + s.1.queue.length = s.2.base + s.2.ents.length
  ackb : s.1.pending ≠ 0 → ∀ a ∈ s.2.acks, a.2.1 < s.2.base + s.2.ents.length
  wf : ∀ e ∈ s.2.ents, e.1.Nodup ∧ ∀ oc, e.2 = some oc → oc.Nodup
  inv : s.1.pending ≠ 0 → ∀ k (hk : k < s.1.queue.length),
    Ballot.Inv (s.2.ent (s.1.pending + k)).1 (s.2.ent (s.1.pending + k)).2
      (s.2.ackers (s.1.pending + k)) s.1.queue[k]
  notGranted : s.1.pending ≠ 0 → ∀ k (hk : k < s.1.queue.length), s.1.queue[k].granted = false
  lcLt : s.1.pending ≠ 0 → s.1.lastCommitted < s.1.pending
  lcEq : s.1.pending ≠ 0 → s.2.base < s.1.pending → s.1.lastCommitted + 1 = s.1.pending ∧
    IsQuorum (s.2.ent s.1.lastCommitted).1 (s.2.ent s.1.lastCommitted).2
      (s.2.ackers s.1.lastCommitted)
  cq : s.1.pending ≠ 0 → s.1.closures.first ≤ s.1.pending ∧
    s.1.closures.first + s.1.closures.queue.length = s.1.pending + s.1.queue.length
  notesSorted : s.2.notes.Pairwise (· < ·)
  notesLe : ∀ n ∈ s.2.notes, n ≤ s.1.lastCommitted

theorem IsQuorum.mono {conf : List P} {old : Option (List P)} {S T : P → Bool}
    (h : IsQuorum conf old S) (hST : ∀ p, S p = true → T p = true) : IsQuorum conf old T := by
  have key : ∀ l : List P, Majority l S → Majority l T := by
    intro l hl
    unfold Majority at *
    have := List.countP_mono_left (p := S) (q := T) (l := l) (fun x _ hx => hST x hx)
    omega
  exact ⟨key _ h.1, fun oc ho => key _ (h.2 oc ho)⟩

theorem ent_append {h : Hist P} {i : Nat} {x} (hb : h.base ≤ i) (hi : i < h.base + h.ents.length) :
    Hist.ent { h with ents := h.ents ++ [x] } i = h.ent i := by
  unfold Hist.ent
  have hlt : i - h.base < h.ents.length := by omega
  simp [List.getD, List.getElem?_append_left hlt]

theorem wf_ent {h : Hist P} (hw : ∀ e ∈ h.ents, e.1.Nodup ∧ ∀ oc, e.2 = some oc → oc.Nodup)
    (i : Nat) : (h.ent i).1.Nodup ∧ ∀ oc, (h.ent i).2 = some oc → oc.Nodup := by
  unfold Hist.ent List.getD
  cases hx : h.ents[i - h.base]? with
  | none => simp
  | some e => simpa using hw e (List.mem_of_getElem? hx)

theorem ackers_append (h : Hist P) (i first last : Nat) (peer : P) (notes : List Nat) :
    Hist.ackers ⟨h.base, h.ents, h.acks ++ [(first, last, peer)], notes⟩ i
      = fun p => h.ackers i p || (decide (first ≤ i ∧ i ≤ last) && p == peer) := by
  funext p
  simp [Hist.ackers]

theorem sysInv_init : SysInv (({}, {}) : BallotBox P C × Hist P) := by
  constructor <;> simp

theorem sysInv_commit {bb : BallotBox P C} {h : Hist P} (hi : SysInv (bb, h)) (first last : Nat)
    (peer : P) {s'} (hs : step (bb, h) (.commit first last peer) = some s') : SysInv s' := by
  simp only [step] at hs
  unfold commitAt at hs
  by_cases hp : bb.pending = 0
  · simp only [hp, if_true] at hs
    cases hs
    have : ({ h with notes := h.notes ++ [] } : Hist P) = h := by simp
    rw [this]; exact hi
  rw [if_neg hp] at hs
  have hbase := hi.base_le hp
  have hlen := hi.len hp
  simp only at hbase hlen
  by_cases hl : last < bb.pending
  · -- ignored: nothing in range is pending
    simp only [hl, if_true] at hs
    cases hs
    have hak : ∀ k, ¬ (bb.pending + k ≤ last) := by intro k; omega
    constructor
    · exact hi.follower
    · exact hi.base_le
    · exact hi.len
    · intro hp' a ha
      rcases List.mem_append.mp ha with ha | ha
      · exact hi.ackb hp' a ha
      · simp only [List.mem_singleton] at ha; subst ha; simp only; omega
    · exact hi.wf
    · intro hp' k hk
      have := hi.inv hp' k hk
      rw [ackers_append]
      have e : decide (first ≤ bb.pending + k ∧ bb.pending + k ≤ last) = false := by
        have := hak k
        simp; omega
      simp only [e, Bool.false_and, Bool.or_false]
      exact this
    · exact hi.notGranted
    · exact hi.lcLt
    · intro hp' hb
      obtain ⟨h1, h2⟩ := hi.lcEq hp' hb
      refine ⟨h1, IsQuorum.mono h2 ?_⟩
      intro p hpp
      simp only at hpp ⊢
      rw [ackers_append]
      simp [hpp]
    · exact hi.cq
    · simpa using hi.notesSorted
    · simpa using hi.notesLe
  rw [if_neg hl] at hs
  by_cases hr : bb.pending + bb.queue.length ≤ last
  · rw [if_pos hr] at hs
    cases hs
    have : ({ h with notes := h.notes ++ [] } : Hist P) = h := by simp
    rw [this]; exact hi
  rw [if_neg hr] at hs
  -- main case
  have hinv0 := hi.inv hp
  have hng0 := hi.notGranted hp
  have hcq := hi.cq hp
  simp only at hinv0 hng0 hcq
  have hlen' := grantRange_length (max bb.pending first) last peer bb.pending bb.queue {} 0
  have hgi := grantRange_inv (max bb.pending first) last peer h.ent h.ackers
    (fun i => (wf_ent hi.wf i).1) (fun i => (wf_ent hi.wf i).2) bb.pending bb.queue {} 0 hinv0
  have hlc := grantRange_lc (max bb.pending first) last peer bb.pending bb.queue {} 0
  generalize hg : grantRange (max bb.pending first) last peer bb.pending bb.queue {} 0 = r at hlen' hgi hlc
  obtain ⟨q, lc⟩ := r
  simp only at hlen' hgi hlc
  simp only [hg] at hs
  -- invariant of each new ballot, phrased with the extended history
  have hbi : ∀ k (hk : k < q.length), Ballot.Inv (h.ent (bb.pending + k)).1 (h.ent (bb.pending + k)).2
      (fun p => h.ackers (bb.pending + k) p ||
        (decide (first ≤ bb.pending + k ∧ bb.pending + k ≤ last) && p == peer)) q[k] := by
    intro k hk
    have := hgi k hk
    have e : decide (max bb.pending first ≤ bb.pending + k ∧ bb.pending + k ≤ last)
        = decide (first ≤ bb.pending + k ∧ bb.pending + k ≤ last) := by
      congr 1; apply propext; omega
    rw [e] at this; exact this
  -- ballots out of range stay not granted
  have hout : ∀ k (hk : k < q.length), ¬ (max bb.pending first ≤ bb.pending + k ∧
      bb.pending + k ≤ last) → q[k].granted = false := by
    intro k hk hno
    have a := hgi k hk
    have b := hinv0 k (by omega)
    have c := hng0 k (by omega)
    rw [show decide (max bb.pending first ≤ bb.pending + k ∧ bb.pending + k ≤ last) = false by
      simpa using hno] at a
    simp only [Bool.false_and, Bool.or_false] at a
    rw [Bool.eq_false_iff]
    intro hgr
    rw [Ballot.inv_granted_iff a, ← Ballot.inv_granted_iff b, c] at hgr
    cases hgr
  have hackb : ∀ a ∈ h.acks ++ [(first, last, peer)], a.2.1 < h.base + h.ents.length := by
    intro a ha
    rcases List.mem_append.mp ha with ha | ha
    · exact hi.ackb hp a ha
    · simp only [List.mem_singleton] at ha; subst ha; simp only; omega
  by_cases hz : lc = 0
  · rw [if_pos hz] at hs
    cases hs
    have hng : ∀ k (hk : k < q.length), q[k].granted = false := by
      intro k hk
      by_cases hin : max bb.pending first ≤ bb.pending + k ∧ bb.pending + k ≤ last
      · rcases hlc with ⟨_, h2⟩ | ⟨k', hk', h1, h2, _⟩
        · exact h2 k hk hin.1 hin.2
        · omega
      · exact hout k hk hin
    constructor
    · intro h0; exact absurd h0 hp
    · exact fun _ => hbase
    · intro _; simp only; omega
    · exact fun _ => hackb
    · exact hi.wf
    · intro _ k hk
      rw [ackers_append]
      exact hbi k hk
    · exact fun _ => hng
    · exact hi.lcLt
    · intro hp' hb
      obtain ⟨h1, h2⟩ := hi.lcEq hp' hb
      refine ⟨h1, IsQuorum.mono h2 ?_⟩
      intro p hpp
      simp only at hpp ⊢
      rw [ackers_append]
      simp [hpp]
    · intro _; simp only; omega
    · simpa using hi.notesSorted
    · simpa using hi.notesLe
  · rw [if_neg hz] at hs
    cases hs
    rcases hlc with ⟨h1, _⟩ | ⟨k0, hk0, e0, r1, r2, g0, glast⟩
    · exact absurd h1 hz
    subst e0
    have hdrop : bb.pending + k0 + 1 - bb.pending = k0 + 1 := by omega
    rw [hdrop]
    have hget : ∀ k (hk : k < (q.drop (k0 + 1)).length), (q.drop (k0+1))[k] = q[k0 + 1 + k]'(by
        simp at hk; omega) := by
      intro k hk; simp [List.getElem_drop]
    have hqk : IsQuorum (h.ent (bb.pending + k0)).1 (h.ent (bb.pending + k0)).2
      (fun p => h.ackers (bb.pending + k0) p ||
        (decide (first ≤ bb.pending + k0 ∧ bb.pending + k0 ≤ last) && p == peer)) :=
      (Ballot.inv_granted_iff (hbi k0 hk0)).mp g0
    constructor
    · intro h0; simp only at h0; omega
    · intro _; simp only; omega
    · intro _; simp only [List.length_drop]; omega
    · exact fun _ => hackb
    · exact hi.wf
    · intro _ k hk
      simp only at hk ⊢
      have hk' : k0 + 1 + k < q.length := by simp at hk; omega
      rw [hget k hk]
      rw [ackers_append]
      have := hbi (k0 + 1 + k) hk'
      rw [show bb.pending + (k0 + 1 + k) = bb.pending + k0 + 1 + k by omega] at this
      exact this
    · intro _ k hk
      simp only at hk ⊢
      have hk' : k0 + 1 + k < q.length := by simp at hk; omega
      rw [hget k hk]
      by_cases hin : bb.pending + (k0 + 1 + k) ≤ last
      · exact glast (k0 + 1 + k) hk' (by omega) hin
      · exact hout (k0 + 1 + k) hk' (by omega)
    · intro _; simp only; omega
    · intro _ _
      refine ⟨rfl, ?_⟩
      rw [ackers_append]
      exact hqk
    · intro _; simp only [List.length_drop]; omega
    · have hlt := hi.lcLt hp
      simp only at hlt ⊢
      rw [List.pairwise_append]
      refine ⟨hi.notesSorted, by simp, ?_⟩
      intro a ha b hb
      simp only [List.mem_singleton] at hb
      have := hi.notesLe a ha
      simp only at this
      omega
    · intro n hn
      simp only at hn ⊢
      have hlt := hi.lcLt hp
      simp only at hlt
      rcases List.mem_append.mp hn with hn | hn
      · have := hi.notesLe n hn
        simp only at this
        omega
      · simp only [List.mem_singleton] at hn; omega

theorem sysInv_step {s s' : BallotBox P C × Hist P} (hi : SysInv s) (op : Op P C)
    (hs : step s op = some s') : SysInv s' := by
  obtain ⟨bb, h⟩ := s
  cases op with
  | commit first last peer => exact sysInv_commit hi first last peer hs
  | reset i =>
    simp only [step] at hs
    split at hs
    · rename_i hc
      obtain ⟨h1, h2, h3⟩ := hc
      cases hs
      have hq : bb.queue = [] := by simpa using h2
      obtain ⟨_, hcl⟩ := hi.follower h1
      simp only at hcl
      simp only [resetPendingIndex, ClosureQueue.resetFirstIndex]
      constructor <;> simp_all
      · omega
      · exact hi.notesSorted
      · exact hi.notesLe
    · cases hs
  | append conf old c =>
    simp only [step] at hs
    split at hs
    · rename_i hc
      obtain ⟨h1, h2, h3⟩ := hc
      cases hs
      have hp : bb.pending ≠ 0 := by omega
      have hbase := hi.base_le hp
      have hlen := hi.len hp
      have hackb := hi.ackb hp
      have hinv := hi.inv hp
      have hng := hi.notGranted hp
      have hcq := hi.cq hp
      simp only at hbase hlen hackb hinv hng hcq
      simp only [appendPendingTask, ClosureQueue.append]
      have hnewent : Hist.ent { h with ents := h.ents ++ [(conf, old)] }
          (bb.pending + bb.queue.length) = (conf, old) := by
        simp [Hist.ent, List.getD, show bb.pending + bb.queue.length - h.base = h.ents.length by omega]
      have hnewack : Hist.ackers { h with ents := h.ents ++ [(conf, old)] }
          (bb.pending + bb.queue.length) = fun _ => false := by
        funext p
        simp only [Hist.ackers, List.any_eq_false]
        intro a ha
        have := hackb a ha
        simp; omega
      have hball : ∀ k (hk : k < (bb.queue ++ [Ballot.init conf old]).length),
          Ballot.Inv (Hist.ent { h with ents := h.ents ++ [(conf, old)] } (bb.pending + k)).1
            (Hist.ent { h with ents := h.ents ++ [(conf, old)] } (bb.pending + k)).2
            (h.ackers (bb.pending + k)) (bb.queue ++ [Ballot.init conf old])[k] := by
        intro k hk
        by_cases hlt : k < bb.queue.length
        · rw [ent_append (by omega) (by omega), List.getElem_append_left hlt]
          exact hinv k hlt
        · have hk' : k = bb.queue.length := by simp at hk; omega
          subst hk'
          rw [hnewent]
          rw [show h.ackers (bb.pending + bb.queue.length) = fun _ => false from hnewack]
          simpa using Ballot.inv_init conf old
      constructor
      · intro h0; exact absurd h0 hp
      · exact fun _ => hbase
      · intro _; simp; omega
      · intro _ a ha; simp; have := hackb a ha; omega
      · intro e he
        rcases List.mem_append.mp he with he | he
        · exact hi.wf e he
        · simp only [List.mem_singleton] at he; subst he
          exact ⟨h2, fun oc ho => h3 oc (by simpa using ho)⟩
      · exact fun _ => hball
      · intro _ k hk
        by_cases hlt : k < bb.queue.length
        · simp only [List.getElem_append_left hlt]; exact hng k hlt
        · have hk' : k = bb.queue.length := by simp at hk; omega
          subst hk'
          simp only [List.getElem_concat_length]
          rw [Bool.eq_false_iff]
          intro hg
          have := (Ballot.inv_granted_iff (Ballot.inv_init conf old)).mp hg
          simp [IsQuorum, Majority] at this
      · exact hi.lcLt
      · intro _ hb
        simp only at hb ⊢
        obtain ⟨e1, e2⟩ := hi.lcEq hp hb
        simp only at e1 e2
        refine ⟨e1, ?_⟩
        rw [ent_append (by omega) (by omega)]
        exact e2
      · intro _; simp; omega
      · exact hi.notesSorted
      · exact hi.notesLe
    · cases hs
  | clear =>
    simp only [step] at hs
    cases hs
    constructor <;> simp [clearPendingTasks, ClosureQueue.clear]
    · exact fun a b hab => ⟨(hi.wf (a, b) hab).1, (hi.wf (a, b) hab).2⟩
    · exact hi.notesSorted
    · exact hi.notesLe
  | setCommitted i =>
    simp only [step] at hs
    unfold setLastCommittedIndex at hs
    by_cases hp : bb.pending ≠ 0 ∨ ¬ bb.queue.isEmpty = true
    · rw [if_pos hp] at hs
      cases hs
      have : ({ h with notes := h.notes ++ [] } : Hist P) = h := by simp
      rw [this]; exact hi
    rw [if_neg hp] at hs
    by_cases h1 : i < bb.lastCommitted
    · rw [if_pos h1] at hs
      cases hs
      have : ({ h with notes := h.notes ++ [] } : Hist P) = h := by simp
      rw [this]; exact hi
    rw [if_neg h1] at hs
    by_cases h2 : bb.lastCommitted < i
    · rw [if_pos h2] at hs
      cases hs
      have hp0 : bb.pending = 0 := by
        apply Classical.byContradiction; intro hne; exact hp (Or.inl hne)
      obtain ⟨f1, f2⟩ := hi.follower hp0
      constructor
      · exact fun _ => ⟨f1, f2⟩
      · intro hne; exact absurd hp0 hne
      · intro hne; exact absurd hp0 hne
      · intro hne; exact absurd hp0 hne
      · exact hi.wf
      · intro hne; exact absurd hp0 hne
      · intro hne; exact absurd hp0 hne
      · intro hne; exact absurd hp0 hne
      · intro hne; exact absurd hp0 hne
      · intro hne; exact absurd hp0 hne
      · simp only
        rw [List.pairwise_append]
        refine ⟨hi.notesSorted, by simp, ?_⟩
        intro a ha b hb
        simp only [List.mem_singleton] at hb
        have := hi.notesLe a ha
        simp only at this
        omega
      · intro n hn
        simp only at hn ⊢
        rcases List.mem_append.mp hn with hn | hn
        · have := hi.notesLe n hn
          simp only at this
          omega
        · simp only [List.mem_singleton] at hn; omega
    · rw [if_neg h2] at hs
      cases hs
      have : ({ h with notes := h.notes ++ [] } : Hist P) = h := by simp
      rw [this]; exact hi
  | pop i =>
    simp only [step] at hs
    split at hs
    · rename_i hle
      cases hs
      constructor
      · intro h0
        obtain ⟨f1, f2⟩ := hi.follower h0
        simp only at f1 f2
        refine ⟨f1, ?_⟩
        simp [ClosureQueue.popUntil, f2]
      · exact hi.base_le
      · exact hi.len
      · exact hi.ackb
      · exact hi.wf
      · exact hi.inv
      · exact hi.notGranted
      · exact hi.lcLt
      · exact hi.lcEq
      · intro hp
        have hcq := hi.cq hp
        have hlt := hi.lcLt hp
        simp only at hcq hlt ⊢
        unfold ClosureQueue.popUntil
        split
        · exact hcq
        · rename_i hne
          simp only [Bool.or_eq_true, decide_eq_true_eq, not_or] at hne
          split
          · exact hcq
          · simp only [List.length_drop]; omega
      · exact hi.notesSorted
      · exact hi.notesLe
    · cases hs

theorem reach_inv {s : BallotBox P C × Hist P} (h : Reach s) : SysInv s := by
  induction h with
  | init => exact sysInv_init
  | step _ hs ih => exact sysInv_step ih _ hs

end BallotBox
end Braft
