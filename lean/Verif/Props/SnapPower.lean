import Verif.Store.SnapPower
import Verif.Props.LogManager
/-
C80. A loss of power, or the death of the process, between the publication of a snapshot and the removal of what
it replaces.
-/
set_option linter.unusedVariables false
set_option linter.unusedSimpArgs false

namespace Braft.Props.SnapPower
open Braft.LogMgr Braft.SnapPower
open Braft.MemLog (Ent Consec)

variable {α : Type}

/-! ### Specification -/

/-- A node that finds the snapshots `d` (newest first) and the log `a` starts, and nothing is missing: the check of
NodeImpl::init succeeds, and every index above the snapshot up to the end of the log can be read and is what is on
disk; and nothing on disk above the snapshot is dropped, unless the log has an entry of another term at the
snapshot's index. -/
structure Restarts (d : List Id) (a : Sto α) : Prop where
  accepted : (bootMgr d a).consistent = true
  complete : ∀ i, top d < i → i ≤ (bootMgr d a).last → ∃ e, (bootMgr d a).getEntry i = some e ∧ a.at i = some e
  kept : ∀ i e, top d < i → a.at i = some e → (∀ m ∈ d.head?, ∀ x, a.at m.index = some x → x.term = m.term) →
    (bootMgr d a).getEntry i = some e
  runs : ∃ ev, Run a (bootMgr d a) ev []

theorem restarts_of_left {d : List Id} {a : Sto α} (h : Left d a) : Restarts d a := by
  have hs := start_without_gap_partial h.disk.sto h.disk.terms
  have hfst := h.disk.sto.pos
  have hpure : ∀ i, (bootMgr d a).getEntry i = none ∨ (bootMgr d a).getEntry i = a.at i := by
    intro i
    obtain ⟨h1, _, _, h4⟩ := bootMgr_frame (a := a) h.dirs
    unfold State.getEntry State.memAt
    rw [h4, h1]
    split
    · exact Or.inl rfl
    · exact Or.inr rfl
  cases d with
  | nil =>
    have hf : a.first = 1 := by have := h.cover; have h0 : top [] = 0 := rfl; omega
    have hc : (init a).consistent = true := by
      unfold State.consistent
      rw [if_pos (show (init a).snap = ⟨0, 0⟩ from rfl)]
      exact decide_eq_true hf
    refine ⟨hc, ?_, ?_, ⟨_, .start h.disk.sto h.disk.terms hf⟩⟩
    · intro i hi hl
      have h0 : top [] = 0 := rfl
      obtain ⟨e, he⟩ := hs.1 hc i (by omega) hl
      refine ⟨e, he, ?_⟩
      have he' : (bootMgr [] a).getEntry i = some e := he
      rcases hpure i with h1 | h1
      · rw [h1] at he'; simp at he'
      · rw [← h1]; exact he'
    · intro i e hi he _
      have h0 : top [] = 0 := rfl
      have hl : i ≤ a.last := by
        by_cases hh : i ≤ a.last
        · exact hh
        · rw [Sto.at_none (Or.inr (by omega))] at he; simp at he
      obtain ⟨e', he'⟩ := hs.1 hc i (by omega) hl
      rcases hpure i with h1 | h1
      · have : (init a).getEntry i = none := h1
        rw [this] at he'; simp at he'
      · rw [h1]; exact he
  | cons m d =>
    have hp := h.dirs.pos m List.mem_cons_self
    have hcov : a.first ≤ m.index + 1 := h.cover
    obtain ⟨hc, hr⟩ := hs.2 m hp.1 hp.2 (by omega)
    have hok : SnapOk (init a) m := by
      refine ⟨hp.2, by show a.first - 1 ≤ m.index; omega, ?_, ?_⟩
      · show Id.lt ⟨0, 0⟩ m = decide ((0 : Int) < m.index)
        rw [show decide ((0 : Int) < m.index) = true by simpa using hp.1, Id.lt_iff]
        left; show (0 : Int) < m.term; omega
      · intro h
        have h' : m.index ≤ 0 := h
        omega
    refine ⟨hc, ?_, ?_, ⟨_, .startSnap h.disk.sto h.disk.terms m hp.1 hok⟩⟩
    · intro i hi hl
      obtain ⟨e, he⟩ := hr i hi hl
      refine ⟨e, he, ?_⟩
      have he' : (bootMgr (m :: d) a).getEntry i = some e := he
      rcases hpure i with h1 | h1
      · rw [h1] at he'; simp at he'
      · rw [← h1]; exact he'
    · intro i e hi he hm
      have hi' : m.index < i := hi
      have hl : i ≤ a.last := by
        by_cases hh : i ≤ a.last
        · exact hh
        · rw [Sto.at_none (Or.inr (by omega))] at he; simp at he
      have hil : (init a).last = a.last := rfl
      have hif : (init a).first = a.first := rfl
      have hlast : i ≤ ((init a).setSnapshot m).last := by
        have hg : (init a).getTerm m.index = 0 ∨ (init a).getTerm m.index = m.term := by
          unfold State.getTerm State.memAt
          simp only [show (init a).mem = ([] : List (Ent α)) from rfl]
          rw [if_neg (by omega)]
          rw [if_neg (by show ¬ m.index = 0; omega), if_neg (by show ¬ m.index = 0; omega)]
          split
          · exact Or.inl rfl
          · rename_i hr
            obtain ⟨x, hx⟩ := Sto.at_some (a := a) (i := m.index) (by omega) (by omega)
            right
            show a.termAt m.index = m.term
            unfold Sto.termAt
            rw [hx]
            exact hm m rfl x hx
        unfold State.setSnapshot
        rw [if_neg (by show ¬ m.index ≤ 0; omega)]
        dsimp only
        unfold State.truncatePrefix State.resetLog
        by_cases h0 : (init a).getTerm m.index = 0
        · rw [if_pos h0]; dsimp only; split <;> omega
        · rw [if_neg h0, if_pos (by rcases hg with hg | hg <;> first | exact hg | contradiction)]
          split
          · dsimp only; split <;> omega
          · dsimp only; omega
      obtain ⟨e', he'⟩ := hr i hi' hlast
      rcases hpure i with h1 | h1
      · have : ((init a).setSnapshot m).getEntry i = none := h1
        rw [this] at he'; simp at he'
      · rw [h1]; exact he

/-! ### C80 -/

/-- **C80, one filesystem.** Whatever a node did (entries appended, truncated and flushed, snapshots saved or
installed and recorded, old ones deleted, the log compacted, earlier crashes), and whenever the process is killed or
the power fails: in whatever common earlier state the snapshot directory and the log are found, the node starts,
its check succeeds and no entry between the snapshot and the end of the log is missing. -/
theorem C80_crash_leaves_no_gap_partial {a : Sto α} {ev dn} {w : World α} (h : Life a ev dn w) :
    ∀ p ∈ w.hist, Restarts p.1 p.2 :=
  fun p hp => restarts_of_left (h.inv.hist p hp)

/-- **C80, two filesystems.** If the two are on different filesystems, which may go back to different moments, the
same holds for a node that only takes snapshots itself, each published after the directory holding the previous one
got to the disk: set_snapshot discards only what the previous snapshot covers. -/
theorem C80_saves_leave_no_gap_partial {a : Sto α} {ev dn} {w : World α} (h : Saves a ev dn w) :
    ∀ d ∈ w.dh, ∀ b ∈ w.sh, Restarts d b :=
  fun d hd b hb => restarts_of_left (h.inv.hist d hd b hb)

/-! ### An example, and what is missing -/

def e1 : Ent Nat := ⟨1, 1, 10⟩
def e2 : Ent Nat := ⟨2, 1, 20⟩
def e3 : Ent Nat := ⟨3, 1, 30⟩

/-- A node with a snapshot at 1 and entries 1 to 3. -/
def w0 : World Nat := World.boot [⟨1, 1⟩] ⟨1, [e1, e2, e3]⟩ []

def disk0 : Sto Nat := ⟨1, [e1, e2, e3]⟩

theorem disk0_ok : DiskOk disk0 := ⟨⟨by decide, ⟨rfl, rfl, rfl, trivial⟩⟩, by decide⟩

def evs0 : List Id := [⟨1, 1⟩, ⟨2, 1⟩, ⟨3, 1⟩]

theorem w0_run : Run disk0 w0.mgr evs0 [] :=
  .startSnap disk0_ok.sto disk0_ok.terms ⟨1, 1⟩ (by decide) ⟨by decide, by decide, by decide, by decide⟩

theorem w0_life : Life disk0 evs0 [] w0 :=
  .boot [⟨1, 1⟩] (by simp) (by decide) disk0_ok (by decide) w0_run

/-- It installs a snapshot at 6, the log is compacted on disk, entry 7 arrives and is written. -/
def s1 : LogMgr.State Nat := w0.mgr.setSnapshot ⟨6, 2⟩
def s2 : LogMgr.State Nat := s1.roundStart
def s3 : LogMgr.State Nat := s2.execOk (.truncPrefix 7) [] ⟨3, 1⟩
def s4 : LogMgr.State Nat := s3.append [⟨7, 2, 70⟩] 1
def s5 : LogMgr.State Nat := s4.flush [.append [⟨7, 2, 70⟩] 1] [] ⟨3, 1⟩ 1 false

def w1 : World Nat := ((((((w0.publish ⟨6, 2⟩).remove []).put s1).put s2).put s3).put s4).put s5

theorem r1 : Run disk0 s1 (evs0 ++ [⟨6, 2⟩]) [] := .setSnapshot w0_run ⟨6, 2⟩ (fun _ => ⟨by decide, by decide, by decide, by decide⟩)
theorem r2 : Run disk0 s2 (evs0 ++ [⟨6, 2⟩]) [] := .roundStart r1 (by decide)
theorem r3 : Run disk0 s3 (evs0 ++ [⟨6, 2⟩]) [.truncPrefix 7] := .execOk r2 _ _ ⟨3, 1⟩ rfl (by intro es c h; cases h) rfl
theorem r4 : Run disk0 s4 (evs0 ++ [⟨6, 2⟩, ⟨7, 2⟩]) [.truncPrefix 7] :=
  .append r3 [⟨7, 2, 70⟩] 1 7 ⟨rfl, trivial⟩ (by simp) (by decide) (by intro _ _; decide)
theorem r5 : Run disk0 s5 (evs0 ++ [⟨6, 2⟩, ⟨7, 2⟩]) ([.truncPrefix 7] ++ [.append [⟨7, 2, 70⟩] 1]) :=
  .flush r4 _ [] ⟨3, 1⟩ 1 false rfl
    (by intro j hj; rw [List.mem_singleton.mp hj]; exact ⟨_, _, rfl, by simp⟩) rfl (by decide)

theorem w1_life : Life disk0 (evs0 ++ [⟨6, 2⟩, ⟨7, 2⟩]) ([.truncPrefix 7] ++ [.append [⟨7, 2, 70⟩] 1]) w1 := by
  refine .log (.log (.log (.log (.record (.remove (.publish w0_life ⟨6, 2⟩ (by decide) (by decide)) [] (by simp)) ⟨6, 2⟩
    (by decide) r1) s2 .roundStart r2) s3 ?_ r3) s4 ?_ r4) s5 ?_ r5
  · exact .execOk (.truncPrefix 7) [] ⟨3, 1⟩ rfl (by intro es c h; cases h)
  · exact .append [⟨7, 2, 70⟩] 1 7 ⟨rfl, trivial⟩ (by decide)
  · exact .flush [.append [⟨7, 2, 70⟩] 1] [] ⟨3, 1⟩ 1 false rfl
      (by intro j hj; rw [List.mem_singleton.mp hj]; exact ⟨_, _, rfl, by simp⟩) (by decide)

/-- Eight states may be found after a loss of power; in the last one the node has snapshot 6 and entry 7, in the
second one both snapshots. -/
example : w1.hist.map (fun p => (p.1.map (·.index), p.2.first, p.2.ents.length)) =
    [([6], 7, 1), ([6], 7, 0), ([6], 7, 0), ([6], 1, 3), ([6], 1, 3), ([6], 1, 3), ([6, 1], 1, 3), ([1], 1, 3)] := by
  decide

/-- **C80, missing part.** An installed snapshot, and log and snapshots on two filesystems: after a loss of power
the directory may be what it was before the rename while the log is already cut off at the snapshot's index. The node
starts (its check finds nothing wrong) with snapshot 1 and a log said to hold 2 to 7, of which 2 to 6 do not exist. -/
theorem C80_install_two_filesystems :
    ∃ (a : Sto Nat) (ev : List Id) (dn : List (Job Nat)) (w : World Nat), Life a ev dn w ∧ w.mgr.err = false ∧
      ∃ d ∈ w.dh, ∃ b ∈ w.sh, (bootMgr d b).consistent = true ∧ (bootMgr d b).first = 2 ∧ (bootMgr d b).last = 7 ∧
        (bootMgr d b).getEntry 7 = some ⟨7, 2, 70⟩ ∧ ∀ i, 2 ≤ i → i ≤ 6 → (bootMgr d b).getEntry i = none := by
  refine ⟨disk0, _, _, w1, w1_life, by decide, [⟨1, 1⟩], by decide, ⟨7, [⟨7, 2, 70⟩]⟩, ?_, by decide, by decide, by decide,
    by decide, ?_⟩
  · exact List.mem_cons_self
  · intro i h1 h2
    have : i = 2 ∨ i = 3 ∨ i = 4 ∨ i = 5 ∨ i = 6 := by omega
    rcases this with rfl | rfl | rfl | rfl | rfl <;> decide

/-! The hypothesis of `C80_saves_leave_no_gap_partial` for a node that saved a snapshot at 3: it discards entry 1 only. -/

def t1 : LogMgr.State Nat := w0.mgr.setApplied ⟨3, 1⟩
def t2 : LogMgr.State Nat := t1.setSnapshot ⟨3, 1⟩
def t3 : LogMgr.State Nat := t2.roundStart
def t4 : LogMgr.State Nat := t3.execOk (.truncPrefix 2) [] ⟨3, 1⟩
def w2 : World Nat := ((((w0.put t1).publish ⟨3, 1⟩).put t2).put t3).put t4

theorem q1 : Run disk0 t1 evs0 [] := .setApplied w0_run ⟨3, 1⟩ (by decide) (by decide)
theorem q2 : Run disk0 t2 evs0 [] := .setSnapshot q1 ⟨3, 1⟩ (fun _ => ⟨by decide, by decide, by decide, by decide⟩)
theorem q3 : Run disk0 t3 evs0 [] := .roundStart q2 (by decide)
theorem q4 : Run disk0 t4 evs0 [.truncPrefix 2] := .execOk q3 _ _ ⟨3, 1⟩ rfl (by intro es c h; cases h) rfl

theorem w2_saves : Saves disk0 evs0 [.truncPrefix 2] w2 := by
  refine .log (.log (.record (.publish (.log (.boot [⟨1, 1⟩] (by simp) (by decide) disk0_ok (by decide) w0_run) t1
    (.setApplied ⟨3, 1⟩) q1) ⟨3, 1⟩ (by decide) (by decide) (by decide)) ⟨3, 1⟩ (by decide) (by decide) (by decide) q2)
    t3 .roundStart q3) t4 ?_ q4
  exact .execOk (.truncPrefix 2) [] ⟨3, 1⟩ rfl (by intro es c h; cases h)

example : w2.dh = [[⟨3, 1⟩, ⟨1, 1⟩], [⟨1, 1⟩]] ∧ w2.sh.map (·.first) = [2, 1, 1, 1, 1] := by decide

/-- **C80, missing part.** Even a snapshot that the node took itself is not safe on two filesystems once
clear_bufferred_logs was called (by a snapshot request soon after it). -/
theorem C80_clear_two_filesystems :
    ∃ (a : Sto Nat) (ev : List Id) (dn : List (Job Nat)) (w : World Nat), Life a ev dn w ∧ w.mgr.err = false ∧
      ∃ d ∈ w.dh, ∃ b ∈ w.sh, (bootMgr d b).consistent = true ∧ (bootMgr d b).first = 2 ∧ (bootMgr d b).last = 3 ∧
        (bootMgr d b).getEntry 2 = none ∧ (bootMgr d b).getEntry 3 = none := by
  let t5 := t4.clearBuffered
  let t6 := t5.execOk (.truncPrefix 4) [] ⟨3, 1⟩
  have q5 : Run disk0 t5 _ _ := .clearBuffered q4
  have q6 : Run disk0 t6 _ _ := .execOk q5 _ _ ⟨3, 1⟩ rfl (by intro es c h; cases h) rfl
  refine ⟨disk0, evs0, [.truncPrefix 2] ++ [.truncPrefix 4], (w2.put t5).put t6, ?_, by decide, [⟨1, 1⟩], by decide, ⟨4, []⟩, ?_, by decide, by decide, by decide, by decide, by decide⟩
  · refine .log (.clearBuffered (.log (.log (.record (.publish (.log w0_life t1 (.setApplied ⟨3, 1⟩) q1) ⟨3, 1⟩ (by decide)
      (by decide)) ⟨3, 1⟩ (by decide) q2) t3 .roundStart q3) t4 ?_ q4) q5) t6 ?_ q6
    · exact .execOk (.truncPrefix 2) [] ⟨3, 1⟩ rfl (by intro es c h; cases h)
    · exact .execOk (.truncPrefix 4) [] ⟨3, 1⟩ rfl (by intro es c h; cases h)
  · exact List.mem_cons_self

end Braft.Props.SnapPower
