import Verif.Log.Wait
/-
C44: callbacks registered with LogManager::wait run exactly once.
-/
set_option linter.unusedVariables false
set_option linter.unusedSimpArgs false

namespace Braft.Props
open Braft.Wait

/-- **C44.** In every history with fewer than 2^32 - 1 calls of wait, each call's callback is in exactly one
place and there exactly once: it was run, or it was removed, or it is waiting (the three lists together
are a permutation of all calls). -/
theorem waiters_once_partial {s : State} (h : Hist s) (hc : s.calls < 4294967295) :
    (s.ran.map (·.1) ++ s.removed ++ s.map.map (·.2)).Perm (List.range s.calls) ∧
    (s.ran.map (·.1) ++ s.removed ++ s.map.map (·.2)).Nodup := by
  have := (h.inv hc).all
  exact ⟨this, this.nodup_iff.mpr List.nodup_range⟩

/-- **C44.** wait runs the callback at once (with ESTOP exactly if stopped) and returns 0 if the log's last
index is not the expected one or if the log manager was stopped; otherwise the callback waits under
the id returned, which is not 0. -/
theorem wait_registers_or_runs {s : State} (h : Hist s) (hc : s.calls < 4294967294) (expected : Int) :
    ((expected ≠ s.last ∨ s.stopped = true) →
      (s.wait expected).2 = 0 ∧ (s.wait expected).1.ran = s.ran ++ [(s.calls, s.stopped)] ∧
      (s.wait expected).1.map = s.map) ∧
    (expected = s.last → s.stopped = false →
      (s.wait expected).2 ≠ 0 ∧ (s.wait expected).1.ran = s.ran ∧
      ((s.wait expected).2, s.calls) ∈ (s.wait expected).1.map ∧ ∀ p ∈ s.map, p ∈ (s.wait expected).1.map) := by
  have hi := h.inv (by omega)
  constructor
  · intro hcond
    unfold State.wait
    rw [if_pos hcond]
    exact ⟨rfl, rfl, rfl⟩
  · intro h1 h2
    have hcond : ¬ (expected ≠ s.last ∨ s.stopped = true) := by
      intro hh
      rcases hh with hh | hh
      · exact hh h1
      · rw [h2] at hh; simp at hh
    have hn := hi.calls
    have hn0 := hi.next0
    unfold State.wait
    rw [if_neg hcond]
    dsimp only
    have hb : 0 < (if s.next = 0 then s.next + 1 else s.next) ∧
        (if s.next = 0 then s.next + 1 else s.next) < 4294967296 ∧ s.next ≤ (if s.next = 0 then s.next + 1 else s.next) := by
      split <;> omega
    refine ⟨toInt32_ne_zero hb.1 hb.2.1, rfl, List.mem_cons_self .., ?_⟩
    intro p hp
    refine List.mem_cons_of_mem _ (List.mem_filter.mpr ⟨hp, ?_⟩)
    simp only [ne_eq, decide_not, Bool.not_eq_eq_eq_not, Bool.not_true, decide_eq_false_iff_not]
    intro hpe
    obtain ⟨k, hk1, hk2, hk3⟩ := hi.keys p hp
    have := toInt32_inj (a := k) (by omega) (by omega) (by omega) hb.2.1 (by rw [← hk3, hpe])
    omega

theorem key_unique {l : List (Int × Nat)} (h : (l.map (·.1)).Nodup) {k : Int} {a b : Nat} (ha : (k, a) ∈ l) (hb : (k, b) ∈ l) :
    a = b := by
  induction l with
  | nil => simp at ha
  | cons x l ih =>
    simp only [List.map_cons, List.nodup_cons] at h
    rcases List.mem_cons.mp ha with ha | ha
    · rcases List.mem_cons.mp hb with hb | hb
      · rw [← ha] at hb; cases hb; rfl
      · exfalso; apply h.1; rw [← ha]; exact List.mem_map_of_mem (f := (·.1)) hb
    · rcases List.mem_cons.mp hb with hb | hb
      · exfalso; apply h.1; rw [← hb]; exact List.mem_map_of_mem (f := (·.1)) ha
      · exact ih h.2 ha hb

/-- **C44.** remove_waiter succeeds exactly for the id of a waiting callback; that callback then is removed
(so by `waiters_once_partial` it never ran and never will), and no other. -/
theorem remove_waiter_exact {s : State} (h : Hist s) (hc : s.calls < 4294967295) (id : Int) :
    ((s.remove id).2 = 0 ↔ ∃ w, (id, w) ∈ s.map) ∧
    ((s.remove id).2 ≠ 0 → (s.remove id).1 = s ∧ (s.remove id).2 = -1) ∧
    (∀ w, (id, w) ∈ s.map → w ∈ (s.remove id).1.removed ∧ w ∉ (s.remove id).1.ran.map (·.1) ∧
      (s.remove id).1.ran = s.ran ∧ ∀ p ∈ s.map, p.1 ≠ id → p ∈ (s.remove id).1.map) := by
  have hi := h.inv hc
  cases hf : s.map.find? (fun p => decide (p.1 = id)) with
  | none =>
    have hno : ∀ w, (id, w) ∉ s.map := by
      intro w hw
      have := List.find?_eq_none.mp hf _ hw
      simp at this
    have hr : s.remove id = (s, -1) := by unfold State.remove; rw [hf]
    rw [hr]
    refine ⟨⟨fun h => by simp at h, fun ⟨w, hw⟩ => absurd hw (hno w)⟩, fun _ => ⟨rfl, rfl⟩, fun w hw => absurd hw (hno w)⟩
  | some p =>
    have hpid : p.1 = id := by have := List.find?_some hf; simpa using this
    have hpm : p ∈ s.map := List.mem_of_find?_eq_some hf
    have hr : s.remove id = ({ s with map := s.map.filter (fun p => decide (p.1 ≠ id)), removed := s.removed ++ [p.2] }, 0) := by
      unfold State.remove; rw [hf]
    have hnd := (waiters_once_partial (h.remove id) (by rw [hr]; exact hc)).2
    rw [hr] at hnd ⊢
    refine ⟨⟨fun _ => ⟨p.2, by rw [← hpid]; exact hpm⟩, fun _ => rfl⟩, fun h => absurd rfl h, ?_⟩
    intro w hw
    have hwp : w = p.2 := by
      refine key_unique hi.nodup hw (?_ : (id, p.2) ∈ s.map)
      rw [← hpid]; exact hpm
    subst hwp
    refine ⟨by simp, ?_, rfl, ?_⟩
    · intro hm
      simp only [List.append_assoc] at hnd
      have hd := (List.nodup_append.mp hnd).2.2
      exact hd p.2 hm p.2 (List.mem_append_right _ (List.mem_append_left _ (List.mem_singleton.mpr rfl))) rfl
    · intro q hq hne
      exact List.mem_filter.mpr ⟨hq, by simpa using hne⟩

/-- **C44.** New entries and stopping run everything that waits, with ESTOP exactly after the stop. -/
theorem wakeup_runs_all (s : State) :
    (∀ l, (s.append l).map = [] ∧ (s.append l).last = l ∧
      (s.append l).ran = s.ran ++ s.map.map (fun p => (p.2, s.stopped))) ∧
    s.shutdown.map = [] ∧ s.shutdown.stopped = true ∧ s.shutdown.ran = s.ran ++ s.map.map (fun p => (p.2, true)) :=
  ⟨fun _ => ⟨rfl, rfl, rfl⟩, rfl, rfl, rfl⟩

/-- After the stop nothing waits any more, whatever happens. -/
theorem stopped_none_waits {s : State} (h : Hist s) (hs : s.stopped = true) : s.map = [] := by
  induction h with
  | init l => simp [Wait.init] at hs
  | @wait s h e ih =>
    unfold State.wait at hs ⊢
    split at hs
    · rename_i hcond
      rw [if_pos hcond]
      exact ih hs
    · rename_i hcond
      have hs' : s.stopped = true := hs
      exact absurd (Or.inr hs') hcond
  | @remove s h id ih =>
    unfold State.remove at hs ⊢
    cases hf : s.map.find? (fun p => decide (p.1 = id)) with
    | none => rw [hf] at hs; exact ih hs
    | some p =>
      rw [hf] at hs
      have := ih hs
      rw [this] at hf
      simp at hf
  | append h l ih => rfl
  | setLast h l ih => exact ih hs
  | shutdown h ih => rfl

/-- Two callbacks wait; one is removed, then an append runs the other. -/
def waitEx : State := (((((Wait.init 0).wait 0).1.wait 0).1.remove 1).1).append 1

example : Hist waitEx ∧ waitEx.removed = [0] ∧ waitEx.ran = [(1, false)] ∧ waitEx.calls = 2 ∧
    ((Wait.init 0).wait 0).2 = 1 :=
  ⟨.append (.remove (.wait (.wait (.init 0) 0) 0) 1) 1, by decide, by decide, by decide, by decide⟩

/-- `k` times a callback is registered and removed. -/
def churn : Nat → State → State
  | 0, s => s
  | k + 1, s => let t := churn k s; ((t.wait t.last).1.remove (t.wait t.last).2).1

theorem churn_hist (k : Nat) {s : State} (h : Hist s) : Hist (churn k s) := by
  induction k with
  | zero => exact h
  | succ k ih => exact .remove (.wait ih _) _

theorem churn_state (k : Nat) (hk : k < 4294967295) :
    (churn k ((Wait.init 0).wait 0).1).map = [(1, 0)] ∧ (churn k ((Wait.init 0).wait 0).1).next = 2 + k ∧
    (churn k ((Wait.init 0).wait 0).1).stopped = false ∧ (churn k ((Wait.init 0).wait 0).1).ran = [] ∧
    0 ∉ (churn k ((Wait.init 0).wait 0).1).removed ∧ 0 < (churn k ((Wait.init 0).wait 0).1).calls ∧
    (churn k ((Wait.init 0).wait 0).1).last = 0 := by
  induction k with
  | zero => decide
  | succ k ih =>
    obtain ⟨h1, h2, h3, h4, h5, h6, h7⟩ := ih (by omega)
    have hne : toInt32 (2 + (k : Int)) ≠ 1 := by
      intro hh
      have := toInt32_inj (a := 2 + (k : Int)) (b := 1) (by omega) (by omega) (by omega) (by omega) (by rw [hh]; rfl)
      omega
    obtain ⟨d, hd⟩ : ∃ d, toInt32 (2 + (k : Int)) = d := ⟨_, rfl⟩
    rw [hd] at hne
    generalize hT : churn k ((Wait.init 0).wait 0).1 = T at h1 h2 h3 h4 h5 h6 h7
    have hw : T.wait T.last = ({ T with map := [(d, T.calls), (1, 0)], next := 2 + (k : Int) + 1, calls := T.calls + 1 }, d) := by
      unfold State.wait
      rw [if_neg (by rw [h3]; simp), h1, h2]
      dsimp only
      rw [if_neg (by omega), hd]
      have : List.filter (fun p : Int × Nat => decide (p.1 ≠ d)) [(1, 0)] = [(1, 0)] := by
        rw [List.filter_cons_of_pos (by simpa using Ne.symm hne)]; rfl
      rw [this]
    have hr : churn (k + 1) ((Wait.init 0).wait 0).1 =
        { T with map := [(1, 0)], next := 2 + (k : Int) + 1, calls := T.calls + 1, removed := T.removed ++ [T.calls] } := by
      simp only [churn]
      rw [hT, hw]
      unfold State.remove
      dsimp only
      rw [List.find?_cons_of_pos (by simp)]
      dsimp only
      rw [List.filter_cons_of_neg (by simp), List.filter_cons_of_pos (by simpa using Ne.symm hne)]
      rfl
    rw [hr]
    refine ⟨rfl, by show 2 + (k : Int) + 1 = 2 + ((k + 1 : Nat) : Int); omega, h3, h4, ?_, by show 0 < T.calls + 1; omega, h7⟩
    show 0 ∉ T.removed ++ [T.calls]
    intro hm
    rcases List.mem_append.mp hm with hm | hm
    · exact h5 hm
    · simp at hm; omega

/-- **C44, missing part.** The id is kept in an `int`: after 2^32 - 1 further registrations the first waiting
callback's id is used again and its entry is overwritten. It is neither waiting nor run nor removed, and
never will be run. -/
theorem waiter_lost_after_wrap :
    ∃ s, Hist s ∧ 0 < s.calls ∧ 0 ∉ s.ran.map (·.1) ∧ 0 ∉ s.removed ∧ 0 ∉ s.map.map (·.2) := by
  obtain ⟨K, hK⟩ : ∃ K : Nat, K = 4294967294 := ⟨_, rfl⟩
  obtain ⟨h1, h2, h3, h4, h5, h6, h7⟩ := churn_state K (by omega)
  -- one more registered callback gets id 0, the next one id 1
  have hh : Hist (churn K ((Wait.init 0).wait 0).1) := churn_hist _ (.wait (.init 0) 0)
  generalize churn K ((Wait.init 0).wait 0).1 = T at h1 h2 h3 h4 h5 h6 h7 hh
  have h2' : T.next = 4294967296 := by rw [h2]; omega
  have hw1 : (T.wait 0).1 = { T with map := [(0, T.calls), (1, 0)], next := 4294967297, calls := T.calls + 1 } := by
    unfold State.wait
    rw [if_neg (by rw [h3, h7]; simp), h1, h2']
    rfl
  have hw2 : ((T.wait 0).1.wait 0).1 = { T with map := [(1, T.calls + 1), (0, T.calls)], next := 4294967298, calls := T.calls + 2 } := by
    rw [hw1]
    unfold State.wait
    dsimp only
    rw [if_neg (by rw [h3, h7]; simp)]
    rfl
  refine ⟨((T.wait 0).1.wait 0).1, .wait (.wait hh 0) 0, ?_⟩
  rw [hw2]
  refine ⟨by show 0 < T.calls + 2; omega, by show 0 ∉ T.ran.map (·.1); rw [h4]; simp, h5, ?_⟩
  show 0 ∉ [T.calls + 1, T.calls]
  simp; omega

end Braft.Props
