import Verif.Node.Bootstrap
import Verif.Cluster.Boot
import Verif.Cluster.Traces
import Verif.Props.Cluster
/-
C82: bootstrap(). What one call leaves on disk, wherever it is interrupted, and what a node started from that has
(Verif/Node/Bootstrap.lean); and the guarantees of C01-C04 and C57 for a group whose members were bootstrapped instead of
started with an initial configuration (Verif/Cluster/Boot.lean): moreover nobody forgets the data they were bootstrapped with.

Specification vocabulary:
* `Want o content`: the disk of a node bootstrapped with the options `o`: the snapshot stands for the first `o.last` entries,
  and the log begins behind it with the configuration.
* `Partly o content d`: the disk a bootstrap may leave when the process ends too early.
* `BReachable p K c B s`: `s` is a state of an execution of a group whose member `i` was bootstrapped with the data `K` and the
  configuration `c` as far as `B i` says. `BootOk`: a majority of `c` finished.
-/
set_option linter.unusedVariables false
set_option linter.unusedSimpArgs false
set_option linter.unusedSectionVars false

namespace Braft.Props.Bootstrap

section Node
open Braft.Bootstrap Braft.LogMgr
open Braft.MemLog (Ent)
variable {P D S : Type}

/-- The options make sense: members, and with a last_log_index the data and where to store it. -/
structure Sensible (o : Opts P S) (content : S) : Prop where
  members : o.conf ≠ []
  nonneg : 0 ≤ o.last
  data : 0 < o.last → o.fsm = some content ∧ o.snapUri = true ∧ o.loads = true
  gap : 0 < o.last → 1 ≤ o.gap ∧ o.gap ≤ o.last

/-- The snapshot of the first `o.last` entries, which contains no configuration. -/
def wantSnap (o : Opts P S) (content : S) : Option (Snap P S) :=
  if 0 < o.last then some ⟨⟨o.last, 1⟩, [], content⟩ else none

def Want (o : Opts P S) (content : S) : Disk P D S :=
  ⟨⟨o.last + 1, [⟨o.last + 1, 1, .conf o.conf⟩]⟩, wantSnap o content, 1⟩

/-- Nothing; or the snapshot, with the old log or a log that begins behind it. -/
def Partly (o : Opts P S) (content : S) (d : Disk P D S) : Prop :=
  d = Disk.fresh ∨ (0 < o.last ∧ (d = ⟨⟨1, []⟩, wantSnap o content, 1⟩ ∨ d = ⟨⟨o.last + 1, []⟩, wantSnap o content, 1⟩))

theorem fresh_run {o : Opts P S} {content : S} (h : Sensible o content) :
    bootstrap o (Disk.fresh : Disk P D S) = (.ok, Want o content,
      [Disk.fresh, Disk.fresh] ++ (if 0 < o.last then
        [⟨⟨1, []⟩, wantSnap o content, 1⟩, ⟨⟨o.last + 1, []⟩, wantSnap o content, 1⟩, Want o content]
        else [Disk.fresh, Want o content])) := by
  obtain ⟨n, conf, fsm, su, ld, gap⟩ := o
  obtain ⟨h1, h2, h3, h4⟩ := h
  dsimp only at h1 h2 h3 h4
  by_cases hn : 0 < n
  · obtain ⟨rfl, rfl, rfl⟩ := h3 hn
    obtain ⟨g1, g2⟩ := h4 hn
    have a1 : ¬ n < gap := by omega
    have a2 : ¬ n ≤ 0 := by omega
    have a3 : n ≠ 0 := by omega
    have a4 : 1 ≤ n + 1 := by omega
    have a5 : n + 1 > 0 := by omega
    simp [bootstrap, Disk.fresh, snapPart, metaTerm, init, Sto.last, State.lastLogId, h1, hn, a1, a2, a3, a4, a5, Id.gt,
      State.setSnapshot, State.getTerm, State.memAt, State.truncatePrefix, State.appendLeader, State.enqueue, number, stores,
      Sto.run, confAt, Want, wantSnap]
  · have : n = 0 := by omega
    subst this
    cases fsm <;> simp [bootstrap, Disk.fresh, snapPart, metaTerm, init, Sto.last, State.lastLogId, h1,
      State.appendLeader, State.enqueue, number, stores, Sto.run, Want, wantSnap]

/-- C82: over an older snapshot the call fails, and leaves the snapshot and the log as they are, also when it crashes; over one that
is not older it succeeds and leaves the snapshot as it is. -/
theorem C82_over_snapshot {o : Opts P S} {content : S} (hl : 0 < o.last) (hc : o.conf ≠ []) (hf : o.fsm = some content)
    (hu : o.snapUri = true) (hld : o.loads = true) (hg : 0 < o.gap) (d : Disk P D S) (ht : metaTerm d ≠ 0) (m : Snap P S)
    (hm : d.snap = some m) :
    ((m.id.term < 1 ∨ (m.id.term = 1 ∧ m.id.index < o.last)) → (bootstrap o d).1 = .fail ∧
      ∀ x, (x = (bootstrap o d).2.1 ∨ x ∈ (bootstrap o d).2.2) → x.snap = some m ∧ x.log = d.log) ∧
    ((1 < m.id.term ∨ (m.id.term = 1 ∧ o.last ≤ m.id.index)) → (bootstrap o d).1 = .ok ∧
      ∀ x ∈ (bootstrap o d).2.2, x.snap = some m) := by
  have h0 : ¬ (o.last > 0 ∧ (o.conf = [] ∨ o.fsm.isNone = true)) := by rw [hf]; simp [hc]
  constructor
  · intro hold
    have hgt : Id.gt (⟨o.last, 1⟩ : Id) m.id = true := by
      unfold Id.gt Id.lt
      rcases hold with h | ⟨h, h'⟩
      · rw [if_neg (by dsimp only; omega)]; simpa using h
      · rw [if_pos h]; simpa using h'
    have hsp : ∀ d' : Disk P D S, d'.snap = some m → snapPart o d' content = (.fail, init d'.log, d'.snap) := by
      intro d' hd'
      unfold snapPart
      simp [hu, hd', hgt]
    unfold bootstrap
    rw [if_neg h0, if_neg hc]
    dsimp only
    rw [if_neg ht, hf]
    dsimp only
    rw [if_pos hl, hsp { d with term := metaTerm d } hm]
    dsimp only
    refine ⟨rfl, fun x hx => ?_⟩
    rcases hx with rfl | hx
    · exact ⟨hm, rfl⟩
    · simp only [List.mem_cons, List.not_mem_nil, or_false] at hx
      rcases hx with rfl | rfl <;> exact ⟨hm, rfl⟩
  · intro hnew
    have hgt : Id.gt (⟨o.last, 1⟩ : Id) m.id = false := by
      unfold Id.gt Id.lt
      rcases hnew with h | ⟨h, h'⟩
      · rw [if_neg (by dsimp only; omega)]; simp; omega
      · rw [if_pos h]; simpa using h'
    have hsp : ∀ d' : Disk P D S, d'.snap = some m → (snapPart o d' content).1 = .ok ∧ (snapPart o d' content).2.2 = some m := by
      intro d' hd'
      unfold snapPart
      simp [hu, hd', hgt, hld, hg]
    unfold bootstrap
    rw [if_neg h0, if_neg hc]
    dsimp only
    rw [if_neg ht, hf]
    dsimp only
    rw [if_pos hl]
    obtain ⟨e1, e2⟩ := hsp { d with term := metaTerm d } hm
    rw [e1, e2]
    dsimp only
    refine ⟨rfl, fun x hx => ?_⟩
    rcases List.mem_append.mp hx with hx | hx
    · simp only [List.mem_cons, List.not_mem_nil, or_false] at hx
      rcases hx with rfl | rfl | rfl
      · exact hm
      · exact hm
      · rfl
    · simp only [List.mem_map] at hx
      obtain ⟨a, _, rfl⟩ := hx
      rfl

/-- Both kinds of snapshot. -/
example : ∃ (o : Opts Nat Nat) (d : Disk Nat Nat Nat), 0 < o.last ∧ o.conf ≠ [] ∧ o.fsm = some 7 ∧ metaTerm d ≠ 0 ∧
    d.snap = some ⟨⟨3, 1⟩, [1], 5⟩ ∧ 3 < o.last ∧ (bootstrap o d).1 = .fail :=
  ⟨⟨4, [1], some 7, true, true, 1⟩, ⟨⟨4, []⟩, some ⟨⟨3, 1⟩, [1], 5⟩, 1⟩, by decide, by decide, rfl, by decide, rfl, by decide, by decide⟩
example : ∃ (o : Opts Nat Nat) (d : Disk Nat Nat Nat), o.last = 3 ∧ d.snap = some ⟨⟨9, 2⟩, [1], 5⟩ ∧ (bootstrap o d).1 = .ok :=
  ⟨⟨3, [1], some 7, true, true, 1⟩, ⟨⟨10, []⟩, some ⟨⟨9, 2⟩, [1], 5⟩, 2⟩, rfl, rfl, by decide⟩

/-- C82: bootstrapping an unused node with options that make sense succeeds, and stores the data as a snapshot of the first
`last_log_index` entries, and the configuration behind it. -/
theorem C82_bootstrap_partial {o : Opts P S} {content : S} (h : Sensible o content) :
    (bootstrap o (Disk.fresh : Disk P D S)).1 = .ok ∧ (bootstrap o (Disk.fresh : Disk P D S)).2.1 = Want o content := by
  rw [fresh_run h]; exact ⟨rfl, rfl⟩

/-- C82: wherever the process ends, the disk is as before, or has the snapshot but not yet the configuration, or is complete. -/
theorem C82_crash_partial {o : Opts P S} {content : S} (h : Sensible o content) :
    ∀ d ∈ (bootstrap o (Disk.fresh : Disk P D S)).2.2, Partly o content d ∨ d = Want o content := by
  intro d hd
  rw [fresh_run h] at hd
  dsimp only at hd
  by_cases hn : 0 < o.last
  · rw [if_pos hn] at hd
    simp only [List.mem_append, List.mem_cons, List.not_mem_nil, or_false] at hd
    rcases hd with (rfl | rfl) | rfl | rfl | rfl
    · exact Or.inl (Or.inl rfl)
    · exact Or.inl (Or.inl rfl)
    · exact Or.inl (Or.inr ⟨hn, Or.inl rfl⟩)
    · exact Or.inl (Or.inr ⟨hn, Or.inr rfl⟩)
    · exact Or.inr rfl
  · rw [if_neg hn] at hd
    simp only [List.mem_append, List.mem_cons, List.not_mem_nil, or_false] at hd
    rcases hd with (rfl | rfl) | rfl | rfl
    · exact Or.inl (Or.inl rfl)
    · exact Or.inl (Or.inl rfl)
    · exact Or.inl (Or.inl rfl)
    · exact Or.inr rfl

/-- C82: an interrupted bootstrap may be repeated: the outcome is the same. -/
theorem C82_again_partial {o : Opts P S} {content : S} (h : Sensible o content) {d : Disk P D S} (hd : Partly o content d) :
    (bootstrap o d).1 = .ok ∧ (bootstrap o d).2.1 = Want o content := by
  rcases hd with rfl | ⟨hn, hd⟩
  · exact C82_bootstrap_partial h
  · obtain ⟨n, conf, fsm, su, ld, gap⟩ := o
    obtain ⟨h1, h2, h3, h4⟩ := h
    dsimp only at h1 h2 h3 h4 hn hd
    obtain ⟨rfl, rfl, rfl⟩ := h3 hn
    obtain ⟨g1, g2⟩ := h4 hn
    have a1 : 0 < gap := by omega
    have a2 : ¬ n ≤ 0 := by omega
    have a3 : n ≠ 0 := by omega
    have a4 : 1 ≤ n + 1 := by omega
    have a5 : n + 1 > 0 := by omega
    have a6 : ¬ n < n - 1 := by omega
    have a7 : n < n + 1 := by omega
    have a8 : ¬ n + 1 ≤ n := by omega
    have a9 : n + 1 + 0 - 1 = n := by omega
    rcases hd with rfl | rfl
    · simp [bootstrap, snapPart, metaTerm, init, Sto.last, Sto.termAt, Sto.at, State.lastLogId, h1, hn, a1, a2, a3, a4, a5, a6, a7, a8, a9, Id.gt, Id.lt,
        State.setSnapshot, State.getTerm, State.memAt, State.truncatePrefix, State.clearBuffered, State.appendLeader, State.enqueue, number, stores,
        Sto.run, confAt, Want, wantSnap]
    · simp [bootstrap, snapPart, metaTerm, init, Sto.last, Sto.termAt, Sto.at, State.lastLogId, h1, hn, a1, a2, a3, a4, a5, a6, a7, a8, a9, Id.gt, Id.lt,
        State.setSnapshot, State.getTerm, State.memAt, State.truncatePrefix, State.clearBuffered, State.appendLeader, State.enqueue, number, stores,
        Sto.run, confAt, Want, wantSnap]

/-- C82: a node started from a bootstrapped disk has the configuration of the bootstrap, whatever initial configuration it is
started with; its log ends with `last_log_index + 1` of term 1, and its state machine is loaded with the data. -/
theorem C82_start_partial {o : Opts P S} {content : S} (h : Sensible o content) (initial : List P) :
    ∃ mgr, start (Want o content : Disk P D S) initial = some (mgr, o.conf, if 0 < o.last then some content else none) ∧
      mgr.lastLogId = ⟨o.last + 1, 1⟩ ∧ mgr.first = o.last + 1 ∧ mgr.last = o.last + 1 ∧ mgr.applied.index = o.last ∧
      mgr.getTerm o.last = (if 0 < o.last then 1 else 0) := by
  obtain ⟨n, conf, fsm, su, ld, gap⟩ := o
  obtain ⟨h1, h2, h3, h4⟩ := h
  dsimp only at h1 h2 h3 h4
  by_cases hn : 0 < n
  · obtain ⟨rfl, rfl, rfl⟩ := h3 hn
    have a2 : ¬ n ≤ 0 := by omega
    have a3 : n ≠ 0 := by omega
    have a4 : 1 ≤ n + 1 := by omega
    have a5 : n + 1 > 0 := by omega
    have a6 : ¬ n + 1 = 0 := by omega
    have a7 : n < n + 1 := by omega
    have a8 : ¬ n + 1 = n := by omega
    have a9 : ¬ n + 1 < n := by omega
    have a10 : n ≤ n + 1 := by omega
    simp [start, Want, wantSnap, hn, init, Sto.last, Sto.termAt, Sto.at, State.setSnapshot, State.getTerm, State.memAt, State.truncatePrefix,
      State.consistent, State.lastLogId, confAt, a2, a3, a4, a5, a6, a7, a8, a9, a10, Id.lt]
  · have : n = 0 := by omega
    subst this
    simp [start, Want, wantSnap, init, Sto.last, Sto.termAt, Sto.at, State.getTerm, State.memAt, State.consistent, State.lastLogId, confAt]

/-- Five users' entries are in the snapshot. -/
def five : Opts Nat String := ⟨5, [1, 2, 3], some "data", true, true, 1⟩
def none' : Opts Nat String := ⟨0, [1, 2, 3], none, false, true, 1⟩

example : Sensible five "data" := ⟨by decide, by decide, fun _ => ⟨rfl, rfl, rfl⟩, by decide⟩
example : Sensible none' "" := ⟨by decide, by decide, fun h => absurd h (by decide), fun h => absurd h (by decide)⟩
example : Partly five "data" (⟨⟨6, []⟩, some ⟨⟨5, 1⟩, [], "data"⟩, 1⟩ : Disk Nat Nat String) := Or.inr ⟨by decide, Or.inr rfl⟩

/-- C82: wrong options are refused, and nothing is stored: no members, or data without a state machine. -/
theorem C82_refused {o : Opts P S} (d : Disk P D S) (h : o.conf = [] ∨ (0 < o.last ∧ o.fsm = none)) :
    bootstrap o d = (.fail, d, []) := by
  unfold bootstrap
  by_cases h0 : o.last > 0 ∧ (o.conf = [] ∨ o.fsm.isNone = true)
  · rw [if_pos h0]
  · rw [if_neg h0]
    rcases h with h | ⟨h, h'⟩
    · rw [if_pos h]
    · exact absurd ⟨h, Or.inr (by rw [h']; rfl)⟩ h0

/-! ### Where bootstrap does not do what its comment says -/

/-- C82, violated: with raft_do_snapshot_min_index_gap above last_log_index no snapshot is saved, and bootstrap() returns 0: the
configuration is entry 1, and a node started from this has neither the data nor an index above 1. -/
theorem C82_gap_violated {o : Opts P S} {content : S} (h1 : o.conf ≠ []) (hn : 0 < o.last) (hf : o.fsm = some content)
    (hu : o.snapUri = true) (hg : o.last < o.gap) :
    (bootstrap o (Disk.fresh : Disk P D S)).1 = .ok ∧
    (bootstrap o (Disk.fresh : Disk P D S)).2.1 = ⟨⟨1, [⟨1, 1, .conf o.conf⟩]⟩, none, 1⟩ ∧
    ∀ initial, (start (bootstrap o (Disk.fresh : Disk P D S)).2.1 initial).map (·.2) = some (o.conf, none) := by
  obtain ⟨n, conf, fsm, su, ld, gap⟩ := o
  dsimp only at *
  subst hf; subst hu
  have a3 : n ≠ 0 := by omega
  have e : bootstrap (⟨n, conf, some content, true, ld, gap⟩ : Opts P S) (Disk.fresh : Disk P D S) =
      (.ok, ⟨⟨1, [⟨1, 1, .conf conf⟩]⟩, none, 1⟩, [Disk.fresh, Disk.fresh, Disk.fresh, ⟨⟨1, [⟨1, 1, .conf conf⟩]⟩, none, 1⟩]) := by
    simp [bootstrap, Disk.fresh, snapPart, metaTerm, init, Sto.last, State.lastLogId, h1, hn, hg, a3, State.clearBuffered,
      State.appendLeader, State.enqueue, number, stores, Sto.run]
  rw [e]
  refine ⟨rfl, rfl, fun initial => ?_⟩
  simp [start, init, Sto.last, Sto.termAt, Sto.at, State.getTerm, State.memAt, State.consistent, confAt]

example : ∃ o : Opts Nat String, o.conf ≠ [] ∧ 0 < o.last ∧ o.fsm = some "data" ∧ o.snapUri = true ∧ o.last < o.gap :=
  ⟨{ five with gap := 100 }, by decide, by decide, rfl, rfl, by decide⟩

/-- C82, violated: a second bootstrap is not refused: the log gets another entry, with the configuration of the second call. -/
theorem C82_twice_violated {o o' : Opts P S} {content c' : S} (h : Sensible o content) (h' : Sensible o' c') (hl : o'.last = o.last) :
    (bootstrap o' (Want o content : Disk P D S)).1 = .ok ∧
    (bootstrap o' (Want o content : Disk P D S)).2.1 =
      ⟨⟨o.last + 1, [⟨o.last + 1, 1, .conf o.conf⟩, ⟨o.last + 2, 1, .conf o'.conf⟩]⟩, wantSnap o content, 1⟩ := by
  obtain ⟨n, conf, fsm, su, ld, gap⟩ := o
  obtain ⟨n', conf', fsm', su', ld', gap'⟩ := o'
  obtain ⟨h1, h2, h3, h4⟩ := h
  obtain ⟨i1, i2, i3, i4⟩ := h'
  dsimp only at h1 h2 h3 h4 i1 i2 i3 i4 hl
  subst hl
  by_cases hn : 0 < n'
  · obtain ⟨rfl, rfl, rfl⟩ := h3 hn
    obtain ⟨rfl, rfl, rfl⟩ := i3 hn
    obtain ⟨g1, g2⟩ := i4 hn
    have a1 : 0 < gap' := by omega
    have a2 : ¬ n' ≤ 0 := by omega
    have a3 : n' ≠ 0 := by omega
    have a4 : 1 ≤ n' + 1 := by omega
    have a5 : n' + 1 > 0 := by omega
    have a6 : ¬ n' + 1 = 0 := by omega
    have a7 : n' < n' + 1 := by omega
    have a8 : ¬ n' + 1 = n' := by omega
    have a9 : ¬ n' + 1 < n' := by omega
    have a10 : n' ≤ n' + 1 := by omega
    have a11 : n' + 2 - 1 = n' + 1 := by omega
    have a12 : n' + 1 + 1 = n' + 2 := by omega
    have a13 : n' + 2 - 1 - (n' + 1) = 0 := by omega
    have a14 : n' + 1 + 1 - 1 = n' + 1 := by omega
    have a15 : ¬ n' + 1 < 1 := by omega
    have a16 : ¬ n' + 1 < n' + 1 := by omega
    have a17 : (1 : Int) < 2 := by omega
    simp [bootstrap, snapPart, metaTerm, init, Sto.last, Sto.termAt, Sto.at, State.lastLogId, i1, hn, a1, a2, a3, a4, a5, a6, a7, a8, a9, a10, a11, a12, a13, a14, a15, a16, a17,
      Id.gt, Id.lt, State.setSnapshot, State.getTerm, State.memAt, State.truncatePrefix, State.clearBuffered, State.appendLeader,
      State.enqueue, number, stores, Sto.run, confAt, Want, wantSnap]
  · have : n' = 0 := by omega
    subst this
    cases fsm' <;> simp [bootstrap, snapPart, metaTerm, init, Sto.last, Sto.termAt, Sto.at, State.lastLogId, i1,
      State.getTerm, State.memAt, State.appendLeader, State.enqueue, number, stores, Sto.run, Want, wantSnap]

/-- C82, violated: the node can be started when the bootstrap was interrupted after the snapshot. It has the data but no
configuration, and does not take the initial configuration it is started with: it will never stand for election. -/
theorem C82_interrupted_violated {o : Opts P S} {content : S} (h : Sensible o content) {d : Disk P D S} (hd : Partly o content d)
    (hf : d ≠ Disk.fresh) (initial : List P) : (start d initial).map (·.2) = some ([], some content) := by
  rcases hd with hd | ⟨hn, hd⟩
  · exact absurd hd hf
  · have a2 : ¬ o.last ≤ 0 := by omega
    have a3 : o.last ≠ 0 := by omega
    have a6 : ¬ o.last < o.last - 1 := by omega
    have a7 : o.last < o.last + 1 := by omega
    have a8 : 0 < o.last + 1 := by omega
    rcases hd with rfl | rfl
    · simp [start, wantSnap, hn, init, Sto.last, Sto.termAt, Sto.at, State.setSnapshot, State.getTerm, State.memAt, State.truncatePrefix,
        State.consistent, confAt, a2, a3, a6, a7, a8, Id.lt]
    · simp [start, wantSnap, hn, init, Sto.last, Sto.termAt, Sto.at, State.setSnapshot, State.getTerm, State.memAt, State.truncatePrefix,
        State.consistent, confAt, a2, a3, a6, a7, a8, Id.lt]

example : ∃ d : Disk Nat Nat String, d ∈ (bootstrap five Disk.fresh).2.2 ∧ d ≠ Disk.fresh ∧ Partly five "data" d := by
  refine ⟨⟨⟨1, []⟩, wantSnap five "data", 1⟩, ?_, ?_, Or.inr ⟨by decide, Or.inl rfl⟩⟩
  · rw [fresh_run (content := "data") ⟨by decide, by decide, fun _ => ⟨rfl, rfl, rfl⟩, by decide⟩]
    simp [five]
  · intro h
    have := congrArg Disk.snap h
    simp [Disk.fresh, wantSnap, five] at this

/-- C82, violated: with a last_log_index but without a snapshot_uri the process dereferences NULL (node.cpp:245-249 returns 0). -/
theorem C82_no_uri_violated {o : Opts P S} {content : S} (h1 : o.conf ≠ []) (hn : 0 < o.last) (hf : o.fsm = some content)
    (hu : o.snapUri = false) : (bootstrap o (Disk.fresh : Disk P D S)).1 = .abort := by
  obtain ⟨n, conf, fsm, su, ld, gap⟩ := o
  dsimp only at *
  subst hf; subst hu
  simp [bootstrap, Disk.fresh, snapPart, metaTerm, init, Sto.last, State.lastLogId, h1, hn]

example : ∃ o : Opts Nat String, o.conf ≠ [] ∧ 0 < o.last ∧ o.fsm = some "data" ∧ o.snapUri = false :=
  ⟨{ five with snapUri := false }, by decide, by decide, rfl, rfl⟩

end Node

/-! ## The group -/

section Group
open Braft.Raft Braft.Cl Braft.Cl.Traces
open Braft.Props.Cluster (LeadsC HoldsC leads_rel Defaults defaults_ok)
variable {N D : Type} [DecidableEq N] [DecidableEq D] {p : CParams} {K : Log N D} {c : Conf N} {B : N → Stage} {w : N}

/-- A server right after its first start is what `C82_start_partial` says of the disk: its log consists of `last_log_index`
entries, of which the snapshot is, and the configuration, of term 1; the state machine is loaded. -/
theorem boot_first (hb : B w = .full) : ((bootC K c B).node w).log = K ++ [⟨1, .conf c⟩] ∧
    ((bootC K c B).node w).snap = K ∧ ((bootC K c B).node w).sm = K ∧ ((bootC K c B).node w).applied = K.length := by
  have e : ((bootC K c B).node w).log = snapMerge ((B w).psnap K) ((B w).disk K c) := rfl
  have e2 : ((bootC K c B).node w).snap = (B w).psnap K := rfl
  have e3 : ((bootC K c B).node w).sm = (B w).psnap K := rfl
  have e4 : ((bootC K c B).node w).applied = ((B w).psnap K).length := rfl
  rw [hb] at e e2 e3 e4
  rw [e, e2, e3, e4]
  exact ⟨merge_of_pref (List.prefix_append _ _), rfl, rfl, rfl⟩

theorem boot_two (hp : COk p) (hb : BootOk K c B w) {s s' : CSys N D} (h : BReachable p K c B s) (h' : CSteps p c s s') :
    ∃ a a', Steps Norm c (bootSys K c B w) a ∧ Steps Norm c a a' ∧ SRI p c s a ∧ SRI p c s' a' := by
  obtain ⟨a, h1, h2⟩ := sri_steps hp (boot_sri hb) h
  obtain ⟨a', h3, h4⟩ := sri_steps hp h2 h'
  exact ⟨a, a', h1, h3, h2, h4⟩

/-- C82/C01: two nodes of a bootstrapped group never lead the same term. -/
theorem C82_one_leader_partial {s : CSys N D} {i j : N} {t : Nat} (hp : COk p) (hb : BootOk K c B w)
    (h : BReachable p K c B s) (hi : Ev.lead i t ∈ s.ev) (hj : Ev.lead j t ∈ s.ev) : i = j := by
  obtain ⟨a, _, _, _, hr, _⟩ := boot_two hp hb h .refl
  obtain ⟨r, h1, h2, h3⟩ := hr.rel.ev _ hi
  obtain ⟨r', h1', h2', h3'⟩ := hr.rel.ev _ hj
  have := elections_unique hr.inv.g h1 h1' (by rw [h3, h3'])
  rw [← h2, ← h2', this]

/-- C82/C02: log matching. -/
theorem C82_log_matching_partial {s s' : CSys N D} {i j : N} {l l' : Log N D} {k : Nat} {e e' : Entry N D}
    (hp : COk p) (hb : BootOk K c B w) (h : BReachable p K c B s) (h' : CSteps p c s s')
    (hl : HoldsC s i l) (hl' : HoldsC s' j l') (he : l[k]? = some e) (he' : l'[k]? = some e')
    (ht : e.term = e'.term) : l.take (k + 1) = l'.take (k + 1) := by
  obtain ⟨a, a', _, h2, h3, h4⟩ := boot_two hp hb h h'
  have g1 : Good a'.g l := by
    have : Good a.g l := by
      rcases hl with rfl | rfl
      · rw [← (h3.rel.node i).log]; exact (h3.inv.n i).glog.1
      · rw [← (h3.rel.node i).disk]; exact (h3.inv.n i).gd
    exact fun K a b => (gle_steps h2).created K (this K a b)
  have g2 : Good a'.g l' := by
    rcases hl' with rfl | rfl
    · rw [← (h4.rel.node j).log]; exact (h4.inv.n j).glog.1
    · rw [← (h4.rel.node j).disk]; exact (h4.inv.n j).gd
  have hk : k < l.length := (List.getElem?_eq_some_iff.mp he).1
  have hk' : k < l'.length := (List.getElem?_eq_some_iff.mp he').1
  apply good_eq h4.inv.g.toGBase
  · exact fun K a b => g1 K a (b.trans (List.take_prefix _ _))
  · exact fun K a b => g2 K a (b.trans (List.take_prefix _ _))
  · simp; omega
  · rw [lastTerm_take_succ he, lastTerm_take_succ he', ht]

/-- C82/C03: what a node counts as committed or has applied is in the log of every leader of that or a later term. -/
theorem C82_completeness_partial {s s' : CSys N D} {i j : N} {t n : Nat} (hp : COk p) (hb : BootOk K c B w)
    (h : BReachable p K c B s) (h' : CSteps p c s s')
    (hn : n ≤ (s.node i).bb.lastCommitted ∨ n ≤ (s.node i).applied) (hj : LeadsC s' j t) (ht : (s.node i).term ≤ t) :
    (s'.node j).log.take n = (s.node i).log.take n ∧ n ≤ (s'.node j).log.length := by
  obtain ⟨a, a', _, h2, h3, h4⟩ := boot_two hp hb h h'
  have hcl := (h3.inv.n i).cl
  have hap := (h3.inv.n i).ap
  have hj := leads_rel h4.rel hj
  have ht : (a.node i).term ≤ t := by rw [(h3.rel.node i).term]; exact ht
  have hn : n ≤ (a.node i).commit ∨ n ≤ (a.node i).applied := by rw [(h3.rel.node i).commit, (h3.rel.node i).applied]; exact hn
  rw [← (h3.rel.node i).log, ← (h4.rel.node j).log]
  have hpre : (a.node i).log.take n <+: (a'.node j).log ∧ n ≤ (a.node i).log.length := by
    rcases hn with hn | hn
    · refine ⟨List.IsPrefix.trans ?_ (committed_in_leader h4.inv (committed_later h2 (h3.inv.n i).cc) hj ht), by omega⟩
      apply List.prefix_of_prefix_length_le (List.take_prefix _ _) (List.take_prefix _ _)
      simp; omega
    · refine ⟨List.IsPrefix.trans ?_ (committed_in_leader h4.inv (committed_later h2 (h3.inv.n i).ac) hj ht), by omega⟩
      apply List.prefix_of_prefix_length_le (List.take_prefix _ _) (List.take_prefix _ _)
      simp; omega
  have hlen := hpre.1.length_le
  rw [List.length_take, Nat.min_eq_left hpre.2] at hlen
  have := prefix_take hpre.1
  rw [List.length_take, Nat.min_eq_left hpre.2] at this
  exact ⟨this.symm, hlen⟩

/-- C82/C04: two nodes never apply different entries at one index. -/
theorem C82_applied_partial {s : CSys N D} {i j : N} {n : Nat} {e e' : Entry N D} (hp : COk p) (hb : BootOk K c B w)
    (h : BReachable p K c B s) (hi : Ev.applied i n e ∈ s.ev) (hj : Ev.applied j n e' ∈ s.ev) : e = e' := by
  obtain ⟨a, _, _, _, hr, _⟩ := boot_two hp hb h .refl
  have hI := hr.inv
  obtain ⟨_, K, hK, hKe⟩ := hI.g.app i n e (hr.rel.ev _ hi)
  obtain ⟨_, K', hK', hKe'⟩ := hI.g.app j n e' (hr.rel.ev _ hj)
  obtain ⟨_, Q, hQ, _, hQp⟩ := hI.g.com K hK
  obtain ⟨_, Q', hQ', _, hQp'⟩ := hI.g.com K' hK'
  have hg : ∀ (A B : Log N D) (x : Entry N D), A <+: B → A[n - 1]? = some x → B[n - 1]? = some x := by
    intro A B x hp hx
    obtain ⟨tl, rfl⟩ := hp
    rw [List.getElem?_append_left (List.getElem?_eq_some_iff.mp hx).1]; exact hx
  have h1 := hg _ _ _ hQp hKe
  have h2 := hg _ _ _ hQp' hKe'
  rcases direct_total hI.g.toGBase.core hQ hQ' with h' | h'
  · rw [hg _ _ _ h' h1] at h2; exact Option.some.inj h2
  · rw [hg _ _ _ h' h2] at h1; exact (Option.some.inj h1).symm

/-- C82/C04/C57: the state machine contains the beginning of the node's log up to the applied index, and at any two moments
the state machines of two nodes are comparable. -/
theorem C82_machines_partial {s s' : CSys N D} {i j : N} (hp : COk p) (hb : BootOk K c B w)
    (h : BReachable p K c B s) (h' : CSteps p c s s') :
    (s.node i).sm = (s.node i).log.take (s.node i).applied ∧ (s.node i).sm.length = (s.node i).applied ∧
    ((s.node i).sm <+: (s'.node j).sm ∨ (s'.node j).sm <+: (s.node i).sm) := by
  obtain ⟨a, a', _, h2, h3, h4⟩ := boot_two hp hb h h'
  have e1 := (h3.inv.n i).smi
  have e2 := (h3.inv.n i).ap
  have e3 : (a.node i).sm <+: (a'.node j).sm ∨ (a'.node j).sm <+: (a.node i).sm := by
    rw [(h3.inv.n i).smi, (h4.inv.n j).smi]
    exact h4.inv.g.toGBase.comm_total (committed_later h2 (h3.inv.n i).ac) (h4.inv.n j).ac
  rw [(h3.rel.node i).sm, (h4.rel.node j).sm] at e3
  rw [(h3.rel.node i).sm, (h3.rel.node i).log, (h3.rel.node i).applied] at e1
  rw [(h3.rel.node i).log, (h3.rel.node i).applied] at e2
  refine ⟨e1, ?_, e3⟩
  rw [e1, List.length_take]
  exact Nat.min_eq_left e2

/-- C82: the log of every leader begins with the data and the configuration the group was bootstrapped with. -/
theorem C82_leader_has_boot_partial {s : CSys N D} {i : N} {t : Nat} (hp : COk p) (hb : BootOk K c B w)
    (h : BReachable p K c B s) (hl : LeadsC s i t) : K ++ [⟨1, .conf c⟩] <+: (s.node i).log := by
  obtain ⟨a, _, h1, _, hr, _⟩ := boot_two hp hb h .refl
  have hL := leads_rel hr.rel hl
  have h1t : 1 ≤ t := by
    have a1 := (hr.inv.n i).t1
    have a2 := (hr.inv.n i).pt
    have a3 : (a.node i).term = t := hL.2
    omega
  have := committed_in_leader hr.inv (committed_later h1 (committed_boot hb.data (List.prefix_refl _) h1t)) hL (Nat.le_refl _)
  rw [(hr.rel.node i).log] at this
  exact this

/-- C82: every state machine has applied a beginning of the bootstrapped history, or begins with it: nobody ever applies
anything else in the place of the data. -/
theorem C82_machine_has_boot_partial {s : CSys N D} {i : N} (hp : COk p) (hb : BootOk K c B w) (h : BReachable p K c B s) :
    (s.node i).sm <+: K ++ [⟨1, .conf c⟩] ∨ K ++ [⟨1, .conf c⟩] <+: (s.node i).sm := by
  obtain ⟨a, _, h1, _, hr, _⟩ := boot_two hp hb h .refl
  have := hr.inv.g.toGBase.comm_total (hr.inv.n i).ac (committed_later h1 (committed_boot hb.data (List.prefix_refl _) (Nat.le_refl 1)))
  rw [← (hr.inv.n i).smi, (hr.rel.node i).sm] at this
  exact this


/-! Three nodes were bootstrapped with two entries; the third was interrupted. It gets everything from the leader. -/

def K2 : Log Nat Nat := [da 1 8, da 1 9]
def B3 : Nat → Stage := fun i => if i = 3 then .saved else .full

theorem k2_ok : BootOk K2 c3 B3 1 := ⟨by decide, rfl, by decide, by decide⟩

def boots : List A :=
  [.disk 1, .disk 2, .disk 3, .elect 1, .electB 1 ⟨2, (1, 3), 0⟩ true true, .voteReq 2 2 1 (1, 3) none,
   .voteReqB 2 ⟨2, 1, (1, 3), 1, (1, 3)⟩ true true true,
   .voteRes 1 ⟨2, 2, 1⟩ true false false 2 1 true,
   .apply 1 [7], .replSend 1 2 3, .replRead 1 (.send 2 2 3 1 0) 2,
   .append 2 2 1 3 1 [ce 2 c3, da 2 7] 0 true false, .disk 2, .disk 2, .disk 2, .disk 1, .disk 1, .disk 1, .disk 1,
   .replRes 1 2 4 5 2, .replAck 1 (.ack 2 2 4 5), .fsm 1, .fsm 1, .fsm 1,
   .replSend 1 3 2, .replRead 1 (.send 2 3 2 1 5) 3, .append 3 2 1 2 1 [ce 1 c3, ce 2 c3, da 2 7] 5 true false,
   .disk 3, .disk 3, .disk 3, .disk 3, .fsm 3, .fsm 3, .fsm 3]

def full : Log Nat Nat := [da 1 8, da 1 9, ce 1 c3, ce 2 c3, da 2 7]

example : ∃ s : S, BReachable Defaults K2 c3 B3 s ∧ COk Defaults ∧ BootOk K2 c3 B3 1 ∧ LeadsC s 1 2 ∧ Ev.lead 1 2 ∈ s.ev ∧
    Ev.applied 1 5 (da 2 7) ∈ s.ev ∧ Ev.applied 3 5 (da 2 7) ∈ s.ev ∧ (s.node 1).sm = full ∧ (s.node 3).sm = full ∧
    (s.node 2).sm = K2 ∧ HoldsC s 2 full ∧ (s.node 1).bb.lastCommitted = 5 :=
  ⟨after Defaults c3 (bootC K2 c3 B3) boots, after_ok (by decide +kernel), defaults_ok, k2_ok,
    by unfold LeadsC; decide +kernel, by decide +kernel, by decide +kernel, by decide +kernel, by decide +kernel,
    by decide +kernel, by decide +kernel, Or.inl (by decide +kernel), by decide +kernel⟩

/-- Only node 1 was bootstrapped, the others are started with the initial configuration. 2 and 3
elect 2, whose log does not begin with the data, and apply something else in its place. -/
def forget : List A :=
  [.disk 1, .elect 2, .electB 2 ⟨2, (0, 0), 0⟩ true true, .voteReq 3 2 2 (0, 0) none,
   .voteReqB 3 ⟨2, 2, (0, 0), 1, (0, 0)⟩ true true true, .voteRes 2 ⟨3, 2, 1⟩ true false false 2 1 true,
   .apply 2 [7], .replSend 2 3 0, .replRead 2 (.send 2 3 0 0 0) 2,
   .append 3 2 2 0 0 [ce 2 c3, da 2 7] 0 true false, .disk 3, .disk 3, .disk 3, .disk 2, .disk 2, .disk 2, .disk 2,
   .replRes 2 3 1 2 2, .replAck 2 (.ack 2 3 1 2), .fsm 2, .fsm 2]

/-- C82, violated without the quorum: a group of which only a minority was bootstrapped may forget the data. -/
theorem C82_no_quorum_violated : ∃ (B : Nat → Stage) (s : S), B 1 = .full ∧ BReachable Defaults K2 c3 B s ∧ LeadsC s 2 2 ∧
    ¬ K2 ++ [⟨1, .conf c3⟩] <+: (s.node 2).log ∧ Ev.applied 2 2 (da 2 7) ∈ s.ev ∧ (s.node 1).sm = [da 1 8, da 1 9] :=
  ⟨fun i => if i = 1 then .full else .none, after Defaults c3 (bootC K2 c3 (fun i => if i = 1 then .full else .none)) forget, rfl,
    after_ok (by decide +kernel), by unfold LeadsC; decide +kernel, by decide +kernel, by decide +kernel, by decide +kernel⟩

end Group

end Braft.Props.Bootstrap
