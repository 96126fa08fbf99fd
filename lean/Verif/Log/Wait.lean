/-
Model of the waiters of LogManager (log_manager.cpp:823-913): wait, remove_waiter, the wake-up by
append_entries, and shutdown. Every function is one critical section of LogManager::_mutex, so a history
is a sequence of calls. A callback "runs" here when its bthread is started (or when it is called because
the bthread could not be started).
-/
set_option linter.unusedVariables false
set_option linter.unusedSimpArgs false

namespace Braft.Wait

/-- Conversion of a 64 bit number to `int` (log_manager.cpp:867). -/
def toInt32 (x : Int) : Int := if x % 4294967296 < 2147483648 then x % 4294967296 else x % 4294967296 - 4294967296

/-- `map` is _wait_map, with the number of the call of `wait` as the callback. `ran` are the callbacks that
were run and whether they got ESTOP, `removed` those that were removed; `calls` counts the calls of wait. -/
structure State where
  last : Int
  stopped : Bool
  next : Int
  map : List (Int × Nat)
  ran : List (Nat × Bool)
  removed : List Nat
  calls : Nat

/-- LogManager::LogManager (log_manager.cpp:66-76). -/
def init (last : Int) : State := ⟨last, false, 0, [], [], [], 0⟩

/-- LogManager::wait and notify_on_new_log (log_manager.cpp:836-870). -/
def State.wait (s : State) (expected : Int) : State × Int :=
  if expected ≠ s.last ∨ s.stopped = true then
    ({ s with ran := s.ran ++ [(s.calls, s.stopped)], calls := s.calls + 1 }, 0)
  else
    let n := if s.next = 0 then s.next + 1 else s.next
    let id := toInt32 n
    ({ s with map := (id, s.calls) :: s.map.filter (fun p => decide (p.1 ≠ id)), next := n + 1, calls := s.calls + 1 }, id)

/-- LogManager::remove_waiter (log_manager.cpp:872-886). -/
def State.remove (s : State) (id : Int) : State × Int :=
  match s.map.find? (fun p => decide (p.1 = id)) with
  | some p => ({ s with map := s.map.filter (fun p => decide (p.1 ≠ id)), removed := s.removed ++ [p.2] }, 0)
  | none => (s, -1)

/-- LogManager::wakeup_all_waiter (log_manager.cpp:888-913). -/
def State.wakeup (s : State) : State :=
  { s with map := [], ran := s.ran ++ s.map.map (fun p => (p.2, s.stopped)) }

/-- append_entries (log_manager.cpp:407-447), of which only the last index and the wake-up matter. -/
def State.append (s : State) (last : Int) : State := ({ s with last := last }).wakeup

/-- Other changes of the last index: truncations, resets, snapshots. -/
def State.setLast (s : State) (last : Int) : State := { s with last := last }

/-- LogManager::shutdown (log_manager.cpp:823-827). -/
def State.shutdown (s : State) : State := ({ s with stopped := true }).wakeup

inductive Hist : State → Prop where
  | init (l : Int) : Hist (init l)
  | wait {s} (h : Hist s) (e : Int) : Hist (s.wait e).1
  | remove {s} (h : Hist s) (id : Int) : Hist (s.remove id).1
  | append {s} (h : Hist s) (l : Int) : Hist (s.append l)
  | setLast {s} (h : Hist s) (l : Int) : Hist (s.setLast l)
  | shutdown {s} (h : Hist s) : Hist s.shutdown

theorem toInt32_inj {a b : Int} (ha : 0 ≤ a) (hb : 0 ≤ b) (ha' : a < 4294967296) (hb' : b < 4294967296)
    (h : toInt32 a = toInt32 b) : a = b := by
  unfold toInt32 at h
  rw [Int.emod_eq_of_lt ha ha', Int.emod_eq_of_lt hb hb'] at h
  split at h <;> split at h <;> omega

theorem toInt32_ne_zero {a : Int} (ha : 0 < a) (ha' : a < 4294967296) : toInt32 a ≠ 0 := by
  unfold toInt32
  rw [Int.emod_eq_of_lt (by omega) ha']
  split <;> omega

/-- Where the callbacks are. -/
def State.all (s : State) : List Nat := s.ran.map (·.1) ++ s.removed ++ s.map.map (·.2)

structure Inv (s : State) : Prop where
  calls : s.next ≤ s.calls + 1
  next0 : 0 ≤ s.next
  keys : ∀ p ∈ s.map, ∃ k, 1 ≤ k ∧ k < s.next ∧ p.1 = toInt32 k
  nodup : (s.map.map (·.1)).Nodup
  all : s.all.Perm (List.range s.calls)

theorem filter_key_perm (l : List (Int × Nat)) (h : (l.map (·.1)).Nodup) (id : Int) (p : Int × Nat)
    (hp : l.find? (fun p => decide (p.1 = id)) = some p) :
    l.Perm (p :: l.filter (fun p => decide (p.1 ≠ id))) := by
  induction l with
  | nil => simp at hp
  | cons q l ih =>
    simp only [List.map_cons, List.nodup_cons] at h
    by_cases hq : q.1 = id
    · rw [List.find?_cons_of_pos (by simpa using hq)] at hp
      cases hp
      rw [List.filter_cons_of_neg (by simpa using hq)]
      have : l.filter (fun p => decide (p.1 ≠ id)) = l := by
        rw [List.filter_eq_self]
        intro x hx
        have : x.1 ≠ p.1 := by
          intro hxq
          exact h.1 (by rw [← hxq]; exact List.mem_map_of_mem hx)
        simp; rw [← hq]; exact this
      rw [this]
    · rw [List.find?_cons_of_neg (by simpa using hq)] at hp
      rw [List.filter_cons_of_pos (by simpa using hq)]
      exact ((ih h.2 hp).cons q).trans (List.Perm.swap _ _ _)

theorem filter_key_none (l : List (Int × Nat)) (id : Int) (h : ∀ p ∈ l, p.1 ≠ id) :
    l.filter (fun p => decide (p.1 ≠ id)) = l := by
  rw [List.filter_eq_self]
  intro x hx
  simpa using h x hx

theorem wakeup_inv {s : State} (h : Inv s) : Inv s.wakeup := by
  refine ⟨h.calls, h.next0, by simp [State.wakeup], by simp [State.wakeup], ?_⟩
  have := h.all
  unfold State.all State.wakeup at *
  simp only [List.map_append, List.map_map, List.map_nil, List.append_nil] at this ⊢
  refine List.Perm.trans ?_ this
  have hc : (s.map.map ((fun x => x.1) ∘ fun p => (p.2, s.stopped))) = s.map.map (·.2) := by
    apply List.map_congr_left; intro x _; rfl
  rw [hc, List.append_assoc, List.append_assoc]
  exact List.Perm.append_left _ (List.perm_append_comm)

theorem wait_next_le (s : State) (e : Int) : s.next ≤ (s.wait e).1.next := by
  unfold State.wait
  split
  · exact Int.le_refl _
  · dsimp only
    split <;> omega

theorem Hist.inv {s : State} (h : Hist s) (hc : s.calls < 4294967295) : Inv s := by
  induction h with
  | init l => exact ⟨by show (0 : Int) ≤ 0 + 1; omega, Int.le_refl 0, by simp [Wait.init], by simp [Wait.init], by simp [Wait.init, State.all]⟩
  | @wait s h e ih =>
    by_cases hcond : e ≠ s.last ∨ s.stopped = true
    · have hs : (s.wait e).1 = { s with ran := s.ran ++ [(s.calls, s.stopped)], calls := s.calls + 1 } := by
        unfold State.wait; rw [if_pos hcond]
      rw [hs] at hc ⊢
      have hc' : s.calls + 1 < 4294967295 := hc
      have hi := ih (by omega)
      refine ⟨?_, hi.next0, hi.keys, hi.nodup, ?_⟩
      · have := hi.calls
        show s.next ≤ ((s.calls + 1 : Nat) : Int) + 1; omega
      · have := hi.all
        unfold State.all at this ⊢
        show (List.map (·.1) (s.ran ++ [(s.calls, s.stopped)]) ++ s.removed ++ s.map.map (·.2)).Perm (List.range (s.calls + 1))
        rw [List.range_succ, List.map_append, List.append_assoc, List.append_assoc]
        refine List.Perm.trans (List.Perm.append_left _ List.perm_append_comm) ?_
        rw [← List.append_assoc, ← List.append_assoc]
        exact this.append_right _
    · have hs : (s.wait e).1 = { s with map := ((toInt32 (if s.next = 0 then s.next + 1 else s.next), s.calls) :: (s.map.filter (fun p => decide (p.1 ≠ toInt32 (if s.next = 0 then s.next + 1 else s.next))))), next := (if s.next = 0 then s.next + 1 else s.next) + 1, calls := s.calls + 1 } := by
        unfold State.wait; rw [if_neg hcond]
      rw [hs] at hc ⊢
      have hc' : s.calls + 1 < 4294967295 := hc
      have hi := ih (by omega)
      have hn := hi.calls
      have hn0 := hi.next0
      obtain ⟨n, hnd, hn1, hn2, hn3⟩ : ∃ n, (if s.next = 0 then s.next + 1 else s.next) = n ∧ 1 ≤ n ∧ s.next ≤ n ∧ n ≤ s.calls + 1 := by
        refine ⟨_, rfl, ?_⟩
        split <;> omega
      rw [hnd]
      have hne : ∀ p ∈ s.map, p.1 ≠ toInt32 n := by
        intro p hp hpe
        obtain ⟨k, hk1, hk2, hk3⟩ := hi.keys p hp
        have := toInt32_inj (a := k) (b := n) (by omega) (by omega) (by omega) (by omega) (by rw [← hk3, hpe])
        omega
      rw [filter_key_none _ _ hne]
      refine ⟨?_, ?_, ?_, ?_, ?_⟩
      · show n + 1 ≤ ((s.calls + 1 : Nat) : Int) + 1; omega
      · show 0 ≤ n + 1; omega
      · intro p hp
        simp only [List.mem_cons] at hp
        rcases hp with rfl | hp
        · exact ⟨n, hn1, by show n < n + 1; omega, rfl⟩
        · obtain ⟨k, hk1, hk2, hk3⟩ := hi.keys p hp
          exact ⟨k, hk1, by show k < n + 1; omega, hk3⟩
      · show (List.map (·.1) ((toInt32 n, s.calls) :: s.map)).Nodup
        simp only [List.map_cons, List.nodup_cons]
        refine ⟨?_, hi.nodup⟩
        intro hm
        obtain ⟨p, hp, hpe⟩ := List.mem_map.mp hm
        exact hne p hp hpe
      · have := hi.all
        unfold State.all at this ⊢
        show (s.ran.map (·.1) ++ s.removed ++ List.map (·.2) ((toInt32 n, s.calls) :: s.map)).Perm (List.range (s.calls + 1))
        rw [List.range_succ, List.map_cons]
        refine List.Perm.trans List.perm_middle ?_
        refine List.Perm.trans ?_ (List.perm_append_comm (l₁ := [s.calls]))
        exact this.cons _
  | @remove s h id ih =>
    unfold State.remove at hc ⊢
    cases hf : s.map.find? (fun p => decide (p.1 = id)) with
    | none => rw [hf] at hc; exact ih hc
    | some p =>
      rw [hf] at hc
      have hi := ih hc
      dsimp only
      refine ⟨hi.calls, hi.next0, fun q hq => hi.keys q (List.mem_filter.mp hq).1, ?_, ?_⟩
      · exact List.Nodup.sublist (List.Sublist.map _ List.filter_sublist) hi.nodup
      · have := hi.all
        unfold State.all at this ⊢
        show (s.ran.map (·.1) ++ (s.removed ++ [p.2]) ++ List.map (·.2) (s.map.filter _)).Perm (List.range s.calls)
        refine List.Perm.trans ?_ this
        rw [List.append_assoc, List.append_assoc, List.append_assoc]
        refine List.Perm.append_left _ (List.Perm.append_left _ ?_)
        have hp := (filter_key_perm s.map hi.nodup id p hf).map (·.2)
        rw [List.map_cons] at hp
        exact hp.symm
  | @append s h l ih => exact wakeup_inv (s := { s with last := l }) (by
      have := ih hc
      exact ⟨this.calls, this.next0, this.keys, this.nodup, this.all⟩)
  | setLast h l ih =>
    have := ih hc
    exact ⟨this.calls, this.next0, this.keys, this.nodup, this.all⟩
  | @shutdown s h ih => exact wakeup_inv (s := { s with stopped := true }) (by
      have := ih hc
      exact ⟨this.calls, this.next0, this.keys, this.nodup, this.all⟩)

end Braft.Wait
