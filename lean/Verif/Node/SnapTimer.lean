/-
The snapshot timer of a node and when it tries to make a snapshot (node.cpp:83-92, 349-361, 521, 635-639, 1015,
repeated_timer_task.cpp:38-178). Nobody stops or resets this timer; it is started once, by init, and destroyed by shutdown.

* Time is in milliseconds. A timer does not fire before it is due; how much later is up to the environment, as is how long
  do_snapshot takes and what bthread_timer_add returns (`ok`).
-/
set_option linter.unusedVariables false

namespace Braft.SnapTimer

/-- A C int; an overflow is undefined, and wraps in practice. -/
def toInt (x : Int) : Int := (x + 2147483648) % 4294967296 - 2147483648

/-- The timeout of the timer for snapshot_interval_s (node.cpp:521). -/
def intervalMs (s : Int) : Int := toInt (s * 1000)

/-- The timer is not started; registered; its callback is to run; runs; destroyed. -/
inductive Ph where
  | off | wait (due : Int) | fired | run | dead
deriving DecidableEq, Repr

structure State where
  now : Int
  /-- _first_schedule. -/
  first : Bool
  ph : Ph
  stopped : Bool
  /-- When it was started. -/
  start : Int
  /-- When run() was entered, newest first. -/
  runs : List Int
  /-- When do_snapshot was called for it, newest first. -/
  calls : List Int
deriving DecidableEq, Repr

def State.init : State := ⟨0, true, .off, false, 0, [], []⟩

/-- SnapshotTimer::adjust_timeout_ms (node.cpp:83-92); `r`: the random number. -/
def adjust (first : Bool) (I : Int) (r : Nat) : Int :=
  if !first then I else if 0 < I then (r : Int) % I + 1 else I

/-- RepeatedTimerTask::schedule (repeated_timer_task.cpp:126-134). -/
def sched (I : Int) (s : State) (r : Nat) (ok : Bool) : State :=
  { s with first := false, ph := if ok then .wait (s.now + adjust s.first I r) else .fired }

inductive Act where
  | tick (d : Nat)
  | start (r : Nat) (ok : Bool)
  | expire
  | enter (active : Bool)
  | leave (r : Nat) (ok : Bool)
  | destroy
deriving DecidableEq, Repr

/-- Is the timer added, if one is? -/
def Act.ok : Act → Bool
  | .start _ b => b
  | .leave _ b => b
  | _ => true

def step (I : Int) (s : State) : Act → Option State
  | .tick d => some { s with now := s.now + d }
  -- init (node.cpp:635-639, repeated_timer_task.cpp:80-99)
  | .start r ok => if s.ph = .off then some (sched I { s with start := s.now } r ok) else none
  | .expire => match s.ph with
    | .wait due => if due ≤ s.now then some { s with ph := .fired } else none
    | _ => none
  -- handle_snapshot_timeout (node.cpp:349-361): do_snapshot only in an active state
  | .enter active => match s.ph with
    | .fired => some { s with ph := .run, runs := s.now :: s.runs, calls := if active then s.now :: s.calls else s.calls }
    | _ => none
  -- on_timedout after run() (repeated_timer_task.cpp:63-77)
  | .leave r ok => match s.ph with
    | .run => some (if s.stopped then { s with ph := .dead } else sched I s r ok)
    | _ => none
  -- shutdown (node.cpp:1015, repeated_timer_task.cpp:159-178)
  | .destroy => match s.ph with
    | .dead => none
    | .fired => some { s with stopped := true }
    | .run => some { s with stopped := true }
    | _ => some { s with stopped := true, ph := .dead }

/-- Everything that can happen; adding a timer fails only if `fail`. -/
inductive Reach (I : Int) (fail : Bool) : State → Prop where
  | init : Reach I fail .init
  | step {s s'} (a : Act) : Reach I fail s → (a.ok = true ∨ fail = true) → step I s a = some s' → Reach I fail s'

structure Inv (I : Int) (s : State) : Prop where
  pair : s.runs.Pairwise (fun b a => a + I ≤ b)
  past : ∀ a ∈ s.runs, a ≤ s.now
  after : ∀ a ∈ s.runs, s.start < a ∧ s.start ≤ s.now
  first : s.first = true → (s.ph = .off ∨ s.ph = .dead) ∧ s.runs = []
  off : s.ph = .off → s.first = true ∧ s.stopped = false
  wait : ∀ due, s.ph = .wait due → due ≤ s.now + I ∧ s.start < due ∧ s.start ≤ s.now ∧ (∀ a ∈ s.runs, a + I ≤ due) ∧
    (s.runs = [] → due ≤ s.start + I) ∧ s.stopped = false
  fired : s.ph = .fired → s.start < s.now ∧ ∀ a ∈ s.runs, a + I ≤ s.now
  run : s.ph = .run → s.start < s.now ∧ s.runs ≠ []
  dead : s.ph = .dead → s.stopped = true
  calls : s.calls.Sublist s.runs

theorem inv_step {I : Int} (hI : 0 < I) {s s' : State} (h : Inv I s) (a : Act) (ha : a.ok = true) (hs : step I s a = some s') :
    Inv I s' := by
  obtain ⟨h1, h2, h3, h4, h5, h6, h7, h8, h9, h10⟩ := h
  cases a with
  | tick d =>
    cases hs
    refine ⟨h1, ?_, ?_, h4, h5, ?_, ?_, ?_, h9, h10⟩ <;> dsimp only
    · intro a ha; have := h2 a ha; omega
    · intro a ha; have := h3 a ha; omega
    · intro due hd; obtain ⟨a, b, c, d, e, f⟩ := h6 due hd; exact ⟨by omega, b, by omega, d, e, f⟩
    · intro hp; obtain ⟨a, b⟩ := h7 hp; exact ⟨by omega, fun x hx => by have := b x hx; omega⟩
    · intro hp; obtain ⟨a, b⟩ := h8 hp; exact ⟨by omega, b⟩
  | start r ok =>
    unfold step at hs; dsimp only at hs
    split at hs
    · rename_i hp
      cases hs
      obtain ⟨hf, hst⟩ := h5 hp
      obtain ⟨_, hr⟩ := h4 hf
      simp only [Act.ok] at ha
      subst ha
      have hm1 := Int.emod_nonneg (r : Int) (by omega : I ≠ 0)
      have hm2 := Int.emod_lt_of_pos (r : Int) hI
      unfold sched adjust
      rw [hf, hr]
      dsimp only
      simp only [Bool.not_true, Bool.false_eq_true, if_false, if_pos hI, if_true]
      refine ⟨List.Pairwise.nil, ?_, ?_, ?_, ?_, ?_, ?_, ?_, ?_, ?_⟩ <;> dsimp only
      · intro a ha; cases ha
      · intro a ha; cases ha
      · intro hc; cases hc
      · intro hc; cases hc
      · intro due hd; cases hd
        exact ⟨by omega, by omega, by omega, (fun a ha => by cases ha), (fun _ => by omega), hst⟩
      · intro hc; cases hc
      · intro hc; cases hc
      · intro hc; cases hc
      · rw [hr] at h10; exact h10
    · cases hs
  | expire =>
    unfold step at hs; dsimp only at hs
    split at hs
    · rename_i due hp
      split at hs
      · rename_i hd
        cases hs
        obtain ⟨a, b, c, d, e, f⟩ := h6 due hp
        refine ⟨h1, h2, h3, ?_, ?_, ?_, ?_, ?_, ?_, h10⟩ <;> dsimp only
        · intro hf; have := (h4 hf).1; rw [hp] at this; rcases this with x | x <;> cases x
        · intro hc; cases hc
        · intro _ hc; cases hc
        · intro _; exact ⟨by omega, fun x hx => by have := d x hx; omega⟩
        · intro hc; cases hc
        · intro hc; cases hc
      · cases hs
    · cases hs
  | enter active =>
    unfold step at hs; dsimp only at hs
    split at hs
    · rename_i hp
      cases hs
      obtain ⟨a, b⟩ := h7 hp
      refine ⟨?_, ?_, ?_, ?_, ?_, ?_, ?_, ?_, ?_, ?_⟩ <;> dsimp only
      · exact List.pairwise_cons.mpr ⟨fun x hx => b x hx, h1⟩
      · intro x hx; rcases List.mem_cons.mp hx with e | e
        · omega
        · exact h2 x e
      · intro x hx; rcases List.mem_cons.mp hx with e | e
        · omega
        · have := h3 x e; omega
      · intro hf; have := (h4 hf).1; rw [hp] at this; rcases this with x | x <;> cases x
      · intro hc; cases hc
      · intro _ hc; cases hc
      · intro hc; cases hc
      · intro _; exact ⟨a, by simp⟩
      · intro hc; cases hc
      · split
        · exact h10.cons_cons _
        · exact h10.cons _
    · cases hs
  | leave r ok =>
    unfold step at hs; dsimp only at hs
    split at hs
    · rename_i hp
      obtain ⟨ha1, ha2⟩ := h8 hp
      have hf : s.first = false := by
        cases hf : s.first with
        | false => rfl
        | true => have := (h4 hf).1; rw [hp] at this; rcases this with x | x <;> cases x
      cases hs
      split
      · rename_i hst
        refine ⟨h1, h2, h3, ?_, ?_, ?_, ?_, ?_, fun _ => hst, h10⟩ <;> dsimp only
        · intro hc; rw [hf] at hc; cases hc
        · intro hc; cases hc
        · intro _ hc; cases hc
        · intro hc; cases hc
        · intro hc; cases hc
      · rename_i hst
        simp only [Act.ok] at ha
        subst ha
        unfold sched adjust
        rw [hf]
        simp only [Bool.not_false, if_true]
        refine ⟨h1, h2, h3, ?_, ?_, ?_, ?_, ?_, ?_, h10⟩ <;> dsimp only
        · intro hc; cases hc
        · intro hc; cases hc
        · intro due hd; cases hd
          exact ⟨by omega, by omega, by omega, (fun a ha => by have := h2 a ha; omega), (fun e => absurd e ha2),
            by simpa using hst⟩
        · intro hc; cases hc
        · intro hc; cases hc
        · intro hc; cases hc
    · cases hs
  | destroy =>
    unfold step at hs; dsimp only at hs
    split at hs
    · cases hs
    · rename_i hp; cases hs
      refine ⟨h1, h2, h3, h4, ?_, ?_, h7, h8, fun _ => rfl, h10⟩ <;> dsimp only
      · intro hc; rw [hp] at hc; cases hc
      · intro _ hc; rw [hp] at hc; cases hc
    · rename_i hp; cases hs
      refine ⟨h1, h2, h3, h4, ?_, ?_, h7, h8, fun _ => rfl, h10⟩ <;> dsimp only
      · intro hc; rw [hp] at hc; cases hc
      · intro _ hc; rw [hp] at hc; cases hc
    · cases hs
      refine ⟨h1, h2, h3, ?_, ?_, ?_, ?_, ?_, fun _ => rfl, h10⟩ <;> dsimp only
      · intro hf; exact ⟨Or.inr rfl, (h4 hf).2⟩
      · intro hc; cases hc
      · intro _ hc; cases hc
      · intro hc; cases hc
      · intro hc; cases hc

theorem inv {I : Int} (hI : 0 < I) {s : State} (h : Reach I false s) : Inv I s := by
  induction h with
  | init =>
    refine ⟨List.Pairwise.nil, ?_, ?_, fun _ => ⟨Or.inl rfl, rfl⟩, fun _ => ⟨rfl, rfl⟩, ?_, ?_, ?_, ?_, List.Sublist.refl _⟩
    · intro a ha; cases ha
    · intro a ha; cases ha
    · intro _ hc; cases hc
    · intro hc; cases hc
    · intro hc; cases hc
    · intro hc; cases hc
  | step a _ ha hs ih =>
    exact inv_step hI ih a (by rcases ha with h | h; exact h; cases h) hs

end Braft.SnapTimer
