import Verif.Repl.HeartbeatInv
/-
C71: the heartbeats of a leader to one peer. `Run p` ranges over everything that can happen to a replicator, in time: answers,
failures and timeouts of RPCs, changes of the election timeout between p.lo and p.hi, the end of the replicator at any moment,
timers that cannot be added (if p.timerFails). With p.delta = some d, whatever can happen happens within d.
-/
set_option linter.unusedSectionVars false
set_option linter.unusedVariables false

namespace Braft.Props.Heartbeat
open Braft.Repl.Hb

inductive Steps (p : Par) : State → State → Prop where
  | refl (s : State) : Steps p s s
  | tail {s t u : State} (h : Steps p s t) (hs : Step p t u) : Steps p s u

theorem Steps.run {p : Par} {s t : State} (h : Run p s) (hs : Steps p s t) : Run p t := by
  induction hs with
  | refl => exact h
  | tail _ hs ih => exact Run.step ih hs

theorem Steps.trans {p : Par} {s t u : State} (h1 : Steps p s t) (h2 : Steps p t u) : Steps p s u := by
  induction h2 with
  | refl => exact h1
  | tail _ hs ih => exact ih.tail hs

/-- C71. A live replicator has exactly one heartbeat under way: a timer that will send the next one, an error or a bthread on
the way to send it, or one that was sent and whose answer has not been handled. -/
theorem one_under_way {p : Par} {s : State} (h : Run p s) (ha : s.alive = true) :
    s.timers.length + s.errs.length + s.bths.length + s.rpcs.length + s.rets.length = 1 := by
  cases h.inv.tok ha with
  | timer x h1 h2 h3 h4 h5 => rw [h1, h2, h3, h4, h5]; rfl
  | err x h1 h2 h3 h4 h5 => rw [h1, h2, h3, h4, h5]; rfl
  | bth x h1 h2 h3 h4 h5 => rw [h1, h2, h3, h4, h5]; rfl
  | rpc x h1 h2 h3 h4 h5 => rw [h1, h2, h3, h4, h5]; rfl
  | ret x h1 h2 h3 h4 h5 => rw [h1, h2, h3, h4, h5]; rfl

/-- C71. The time between two heartbeats in a row, and from the start to the first one: at least the heartbeat timeout, if
timers can be added; at most half the election timeout and the heartbeat timeout, and four delays. -/
theorem apart {p : Par} {s : State} (h : Run p s) {l1 l2 : List Nat} {a b : Nat} (he : s.sent ++ [s.start] = l1 ++ a :: b :: l2) :
    (p.timerFails = false → b + hbTimeout p.f p.lo ≤ a) ∧
    (∀ d, p.delta = some d → a ≤ b + p.hi / 2 + hbTimeout p.f p.hi + 4 * d) := by
  have := h.inv.gaps
  rw [he] at this
  exact gaps_at this

/-- C71. The last heartbeat of a live replicator is never longer ago than that. -/
theorem never_silent {p : Par} {s : State} (h : Run p s) (ha : s.alive = true) (d : Nat) (hd : p.delta = some d) :
    s.now ≤ s.sent.headD s.start + p.hi / 2 + hbTimeout p.f p.hi + 4 * d := by
  show s.now ≤ s.last + _ + _ + _
  cases h.inv.tok ha with
  | timer x h1 h2 h3 h4 h5 hi hb => have := hb.upper d hd; omega
  | err x h1 h2 h3 h4 h5 hx hb => have := hb.upper d hd; omega
  | bth x h1 h2 h3 h4 h5 hx hb => have := hb.upper d hd; omega
  | rpc x h1 h2 h3 h4 h5 hc hx hdl hn => have := hn d hd; omega
  | ret x h1 h2 h3 h4 h5 hx hl hu => have := hu d hd; omega

/-- C71. With the default factor, an election timeout of at least 100 ms and delays below a tenth of it, a peer that gets the
heartbeats gets one within every election timeout. -/
theorem within_election_timeout {p : Par} {s : State} (h : Run p s) (ha : s.alive = true) (et d : Nat) (hf : p.f = 10) (h1 : p.lo = et) (h2 : p.hi = et)
    (he : 100 ≤ et) (hd : p.delta = some d) (hdd : 10 * d < et) : s.now < s.sent.headD s.start + et := by
  have := never_silent h ha d hd
  rw [hf, h2] at this
  unfold hbTimeout at this
  rw [if_neg (by decide)] at this
  omega

/-- C71. A replicator that was stopped sends no heartbeat any more, whatever was under way. -/
theorem stopped_is_silent {p : Par} {s t : State} (ha : s.alive = false) (hs : Steps p s t) : t.sent = s.sent ∧ t.alive = false := by
  induction hs with
  | refl => exact ⟨rfl, ha⟩
  | @tail t u _ hu ih =>
    obtain ⟨e, hd⟩ := ih
    cases hu with
    | fire i =>
      unfold State.fire
      split
      · exact ⟨e, hd⟩
      · split <;> exact ⟨e, hd⟩
    | onError i => unfold State.onError; split <;> exact ⟨e, hd⟩
    | beat i =>
      unfold State.beat
      split
      · exact ⟨e, hd⟩
      · dsimp only
        rw [if_neg (by rw [hd]; decide)]
        exact ⟨e, hd⟩
    | reply i => unfold State.reply; split <;> exact ⟨e, hd⟩
    | returned i hg a _ =>
      unfold State.returned
      split
      · exact ⟨e, hd⟩
      · dsimp only
        rw [if_neg (by rw [hd]; decide)]
        exact ⟨e, hd⟩
    | stop => unfold State.stop; rw [if_neg (by rw [hd]; decide)]; exact ⟨e, hd⟩
    | die => exact ⟨e, rfl⟩
    | reset et _ _ => exact ⟨e, hd⟩
    | tick t _ _ => exact ⟨e, hd⟩

/-- C71. Stopping deletes the timer that is set, and cancels the heartbeat RPC in flight: no other one exists. -/
theorem stop_leaves_no_timer {p : Par} {s : State} (h : Run p s) (ha : s.alive = true) :
    s.stop.timers = [] ∧ s.stop.alive = false ∧ ∀ x ∈ s.rpcs, x.id = s.call := by
  unfold State.stop
  rw [if_pos ha]
  refine ⟨?_, rfl, ?_⟩
  · show s.timers.filter (fun t => decide (t.id ≠ s.timer)) = []
    cases h.inv.tok ha with
    | timer x h1 h2 h3 h4 h5 hi => rw [h1]; simp [hi]
    | err x h1 => rw [h1]; rfl
    | bth x h1 => rw [h1]; rfl
    | rpc x h1 => rw [h1]; rfl
    | ret x h1 => rw [h1]; rfl
  · intro x hx
    cases h.inv.tok ha with
    | timer y h1 h2 h3 h4 => rw [h4] at hx; cases hx
    | err y h1 h2 h3 h4 => rw [h4] at hx; cases hx
    | bth y h1 h2 h3 h4 => rw [h4] at hx; cases hx
    | rpc y h1 h2 h3 h4 h5 hc => rw [h4, List.mem_singleton] at hx; rw [hx]; exact hc
    | ret y h1 h2 h3 h4 => rw [h4] at hx; cases hx

/-! A live replicator is never stuck. -/

theorem go_bth {p : Par} {s : State} {x : Nat} (ha : s.alive = true) (h3 : s.bths = [x]) :
    ∃ t, Steps p s t ∧ t.alive = true ∧ t.sent = t.now :: s.sent := by
  refine ⟨s.beat 0, (Steps.refl s).tail (.beat s 0), ?_⟩
  unfold State.beat
  rw [show s.bths[0]? = some x by rw [h3]; rfl]
  dsimp only
  rw [if_pos ha]
  exact ⟨ha, rfl⟩

theorem go_err {p : Par} {s : State} {x : Nat} (ha : s.alive = true) (h2 : s.errs = [x]) (h3 : s.bths = []) :
    ∃ t, Steps p s t ∧ t.alive = true ∧ t.sent = t.now :: s.sent := by
  have he : s.onError 0 = { s with errs := s.errs.eraseIdx 0, bths := [s.now] } := by
    unfold State.onError
    rw [show s.errs[0]? = some x by rw [h2]; rfl]
    dsimp only
    rw [if_pos ha, h3]; rfl
  obtain ⟨t, h, h'⟩ := go_bth (p := p) (s := s.onError 0) (x := s.now) (by rw [he]; exact ha) (by rw [he])
  rw [he] at h'
  exact ⟨t, ((Steps.refl s).tail (.onError s 0)).trans h, h'⟩

theorem go_timer {p : Par} {s : State} {x : Timer} (ha : s.alive = true) (h1 : s.timers = [x]) (h2 : s.errs = []) (h3 : s.bths = [])
    (h4 : s.rpcs = []) (h5 : s.rets = []) : ∃ t, Steps p s t ∧ t.alive = true ∧ t.sent = t.now :: s.sent := by
  let s1 : State := { s with now := max s.now x.due }
  have hs1 : Step p s s1 ∨ s1 = s := by
    by_cases hle : s.now ≤ x.due
    · refine Or.inl (.tick s _ (Nat.le_max_left ..) ?_)
      intro d _
      have hm : max s.now x.due = x.due := Nat.max_eq_right hle
      refine ⟨?_, ?_, ?_, ?_, ?_⟩
      · intro y hy
        rw [h1, List.mem_singleton] at hy
        subst hy
        omega
      · rw [h2]; intro y hy; cases hy
      · rw [h3]; intro y hy; cases hy
      · rw [h4]; intro y hy; cases hy
      · rw [h5]; intro y hy; cases hy
    · refine Or.inr ?_
      show ({ s with now := max s.now x.due } : State) = s
      rw [Nat.max_eq_left (by omega)]
  have h01 : Steps p s s1 := by
    rcases hs1 with h | h
    · exact (Steps.refl s).tail h
    · rw [h]; exact Steps.refl s
  have hf : s1.fire 0 = { s1 with timers := s1.timers.eraseIdx 0, errs := [s1.now] } := by
    unfold State.fire
    rw [show s1.timers[0]? = some x by show s.timers[0]? = _; rw [h1]; rfl]
    dsimp only
    rw [if_pos (show x.due ≤ max s.now x.due from Nat.le_max_right ..), if_pos (show s1.alive = true from ha)]
    rw [show s1.errs = [] from h2]; rfl
  obtain ⟨t, h, h'⟩ := go_err (p := p) (s := s1.fire 0) (x := s1.now) (by rw [hf]; exact ha) (by rw [hf]) (by rw [hf]; exact h3)
  rw [hf] at h'
  exact ⟨t, (h01.tail (.fire s1 0)).trans h, h'⟩

theorem go_ret {p : Par} {s : State} {x : Nat} (ha : s.alive = true) (h1 : s.timers = []) (h2 : s.errs = []) (h3 : s.bths = [])
    (h4 : s.rpcs = []) (h5 : s.rets = [x]) : ∃ t, Steps p s t ∧ t.alive = true ∧ t.sent = t.now :: s.sent := by
  have he : s.returned 0 false true = { s with rets := s.rets.eraseIdx 0, timers := [⟨s.fresh, x + s.hb⟩], timer := s.fresh, fresh := s.fresh + 1 } := by
    unfold State.returned
    rw [show s.rets[0]? = some x by rw [h5]; rfl]
    dsimp only
    rw [if_pos ha, if_neg (by decide)]
    unfold State.arm
    rw [if_pos rfl]
    dsimp only
    rw [h1]; rfl
  obtain ⟨t, h, h'⟩ := go_timer (p := p) (s := s.returned 0 false true) (by rw [he]; exact ha) (by rw [he]) (by rw [he]; exact h2) (by rw [he]; exact h3)
    (by rw [he]; exact h4) (by rw [he, h5]; rfl)
  rw [he] at h'
  exact ⟨t, ((Steps.refl s).tail (.returned s 0 false true (Or.inl rfl))).trans h, h'⟩

/-- C71. Whatever state a live replicator is in, it can go on to send its next heartbeat. -/
theorem never_stuck {p : Par} {s : State} (h : Run p s) (ha : s.alive = true) :
    ∃ t, Steps p s t ∧ t.alive = true ∧ t.sent = t.now :: s.sent := by
  cases h.inv.tok ha with
  | timer x h1 h2 h3 h4 h5 => exact go_timer ha h1 h2 h3 h4 h5
  | err x h1 h2 h3 h4 h5 => exact go_err ha h2 h3
  | bth x h1 h2 h3 h4 h5 => exact go_bth ha h3
  | ret x h1 h2 h3 h4 h5 => exact go_ret ha h1 h2 h3 h4 h5
  | rpc x h1 h2 h3 h4 h5 =>
    have he : s.reply 0 = { s with rpcs := s.rpcs.eraseIdx 0, rets := [s.now] } := by
      unfold State.reply
      rw [show s.rpcs[0]? = some x by rw [h4]; rfl]
      dsimp only
      rw [h5]; rfl
    obtain ⟨t, h, h'⟩ := go_ret (p := p) (s := s.reply 0) (x := s.now) (by rw [he]; exact ha) (by rw [he]; exact h1) (by rw [he]; exact h2)
      (by rw [he]; exact h3) (by rw [he, h4]; rfl) (by rw [he])
    rw [he] at h'
    exact ⟨t, ((Steps.refl s).tail (.reply s 0)).trans h, h'⟩

/-! Concrete runs. -/

/-- An election timeout of 1000 ms, no failures of timers, delays up to 5 ms. -/
def p0 : Par := ⟨10, 1000, 1000, false, some 5⟩

def e0 : State := State.init 50 10 1000 true
def e1 : State := { e0 with now := 152 }
def e2 : State := ((e1.fire 0).onError 0).beat 0
def e3 : State := { e2 with now := 653 }
def e4 : State := (e3.reply 0).returned 0 false true
def e5 : State := { e4 with now := 758 }
def e6 : State := ((e5.fire 0).onError 0).beat 0

/-- The first RPC times out after 500 ms, the second heartbeat goes out 606 ms after the first. -/
theorem e6_run : Run p0 e6 := by
  have r0 : Run p0 e0 := Run.init 50 1000 (Nat.le_refl _) (Nat.le_refl _) true (Or.inl rfl)
  have r1 : Run p0 e1 := r0.step (.tick e0 152 (by decide) (by intro d hd; cases hd; unfold State.onTime; decide))
  have r2 : Run p0 e2 := ((r1.step (.fire _ 0)).step (.onError _ 0)).step (.beat _ 0)
  have r3 : Run p0 e3 := r2.step (.tick e2 653 (by decide) (by intro d hd; cases hd; unfold State.onTime; decide))
  have r4 : Run p0 e4 := (r3.step (.reply _ 0)).step (.returned _ 0 false true (Or.inl rfl))
  have r5 : Run p0 e5 := r4.step (.tick e4 758 (by decide) (by intro d hd; cases hd; unfold State.onTime; decide))
  exact ((r5.step (.fire _ 0)).step (.onError _ 0)).step (.beat _ 0)

example : e6.alive = true ∧ e6.sent = [758, 152] ∧ e6.start = 50 ∧ e6.rpcs = [⟨4, 758, 1258⟩] ∧ e6.timers = [] ∧ hbTimeout 10 1000 = 100 := by decide
example : e4.timers = [⟨3, 753⟩] ∧ e4.timer = 3 ∧ e4.stop.timers = [] := by decide
example : (e2.stop.sent = [152]) ∧ e2.stop.alive = false ∧ e2.stop.rpcs ≠ [] := by decide

/-- Finding: below an election timeout of 20 ms the heartbeat timeout stays 10 ms and a lost heartbeat costs more than an
election timeout, though nothing is delayed. -/
def q0 : Par := ⟨10, 16, 16, false, some 0⟩
theorem short_timeout_witness : ∃ s, Run q0 s ∧ s.alive = true ∧ s.sent.headD s.start + 16 < s.now := by
  let f0 : State := State.init 0 10 16 true
  let f1 : State := { f0 with now := 10 }
  let f2 : State := ((f1.fire 0).onError 0).beat 0
  let f3 : State := { f2 with now := 18 }
  let f4 : State := (f3.reply 0).returned 0 false true
  let f5 : State := { f4 with now := 28 }
  have r0 : Run q0 f0 := Run.init 0 16 (Nat.le_refl _) (Nat.le_refl _) true (Or.inl rfl)
  have r1 : Run q0 f1 := r0.step (.tick f0 10 (by decide) (by intro d hd; cases hd; unfold State.onTime; decide))
  have r2 : Run q0 f2 := ((r1.step (.fire _ 0)).step (.onError _ 0)).step (.beat _ 0)
  have r3 : Run q0 f3 := r2.step (.tick f2 18 (by decide) (by intro d hd; cases hd; unfold State.onTime; decide))
  have r4 : Run q0 f4 := (r3.step (.reply _ 0)).step (.returned _ 0 false true (Or.inl rfl))
  have r5 : Run q0 f5 := r4.step (.tick f4 28 (by decide) (by intro d hd; cases hd; unfold State.onTime; decide))
  exact ⟨f5, r5, by decide, by decide⟩

end Braft.Props.Heartbeat
