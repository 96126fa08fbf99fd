import Verif.Repl.Heartbeat
/-
Invariant of the model of heartbeats: a live replicator has exactly one heartbeat under way.
-/
set_option linter.unusedSectionVars false
set_option linter.unusedSimpArgs false
set_option linter.unusedVariables false

namespace Braft.Repl.Hb

theorem hbTimeout_mono (f : Nat) {a b : Nat} (h : a ≤ b) : hbTimeout f a ≤ hbTimeout f b := by
  unfold hbTimeout
  have := Nat.div_le_div_right (c := if f = 0 then 10 else f) h
  omega

/-- When the last heartbeat was sent, or the replicator was started. -/
def State.last (s : State) : Nat := s.sent.headD s.start

/-- Bounds on the time `x` of what comes before the next heartbeat, `k` delays after the last one. -/
structure Bd (p : Par) (s : State) (x k : Nat) : Prop where
  lower : p.timerFails = false → s.last + hbTimeout p.f p.lo ≤ x
  upper : ∀ d, p.delta = some d → x ≤ s.last + p.hi / 2 + hbTimeout p.f p.hi + k * d ∧ s.now ≤ x + d

/-- The one heartbeat under way. -/
inductive Tok (p : Par) (s : State) : Prop where
  | timer (t : Timer) (h1 : s.timers = [t]) (h2 : s.errs = []) (h3 : s.bths = []) (h4 : s.rpcs = []) (h5 : s.rets = []) (hi : t.id = s.timer)
      (hb : Bd p s t.due 1) : Tok p s
  | err (x : Nat) (h1 : s.timers = []) (h2 : s.errs = [x]) (h3 : s.bths = []) (h4 : s.rpcs = []) (h5 : s.rets = []) (hx : x ≤ s.now)
      (hb : Bd p s x 2) : Tok p s
  | bth (x : Nat) (h1 : s.timers = []) (h2 : s.errs = []) (h3 : s.bths = [x]) (h4 : s.rpcs = []) (h5 : s.rets = []) (hx : x ≤ s.now)
      (hb : Bd p s x 3) : Tok p s
  | rpc (x : Call) (h1 : s.timers = []) (h2 : s.errs = []) (h3 : s.bths = []) (h4 : s.rpcs = [x]) (h5 : s.rets = []) (hc : x.id = s.call)
      (hx : x.sent = s.last) (hd : x.dead ≤ x.sent + p.hi / 2) (hn : ∀ d, p.delta = some d → s.now ≤ x.dead + d) : Tok p s
  | ret (x : Nat) (h1 : s.timers = []) (h2 : s.errs = []) (h3 : s.bths = []) (h4 : s.rpcs = []) (h5 : s.rets = [x]) (hx : x ≤ s.now)
      (hl : s.last ≤ x) (hu : ∀ d, p.delta = some d → x ≤ s.last + p.hi / 2 + d ∧ s.now ≤ x + d) : Tok p s

/-- Of consecutive times, newest first. -/
def Gaps (R : Nat → Nat → Prop) : List Nat → Prop
  | a :: b :: l => R a b ∧ Gaps R (b :: l)
  | _ => True

/-- Two heartbeats in a row, the first at `b`. -/
def Apart (p : Par) (a b : Nat) : Prop :=
  (p.timerFails = false → b + hbTimeout p.f p.lo ≤ a) ∧ ∀ d, p.delta = some d → a ≤ b + p.hi / 2 + hbTimeout p.f p.hi + 4 * d

structure Inv (p : Par) (s : State) : Prop where
  tok : s.alive = true → Tok p s
  elo : p.lo ≤ s.et
  ehi : s.et ≤ p.hi
  hlo : hbTimeout p.f p.lo ≤ s.hb
  hhi : s.hb ≤ hbTimeout p.f p.hi
  lastLe : s.last ≤ s.now
  gaps : Gaps (Apart p) (s.sent ++ [s.start])

theorem Bd.of {p : Par} {s t : State} {x k : Nat} (h : Bd p s x k) (e1 : t.last = s.last) (e2 : t.now = s.now) : Bd p t x k :=
  ⟨by rw [e1]; exact h.lower, by rw [e1, e2]; exact h.upper⟩

/-- The timer is started, `a` is when the answer came. -/
theorem arm_tok {p : Par} {s : State} (h1 : s.timers = []) (h2 : s.errs = []) (h3 : s.bths = []) (h4 : s.rpcs = []) (h5 : s.rets = [])
    (hlo : hbTimeout p.f p.lo ≤ s.hb) (hhi : s.hb ≤ hbTimeout p.f p.hi) {a : Nat} (hl : s.last ≤ a) (han : a ≤ s.now)
    (hu : ∀ d, p.delta = some d → a ≤ s.last + p.hi / 2 + d ∧ s.now ≤ a + d) {addOk : Bool} (ha : addOk = true ∨ p.timerFails = true) :
    Tok p (s.arm a addOk) := by
  unfold State.arm
  cases addOk with
  | true =>
    rw [if_pos rfl]
    refine Tok.timer ⟨s.fresh, a + s.hb⟩ (by rw [h1]; rfl) h2 h3 h4 h5 rfl ⟨?_, ?_⟩
    · intro _
      show s.last + hbTimeout p.f p.lo ≤ a + s.hb
      omega
    · intro d hd
      have := hu d hd
      refine ⟨?_, ?_⟩
      · show a + s.hb ≤ s.last + p.hi / 2 + hbTimeout p.f p.hi + 1 * d
        omega
      · show s.now ≤ a + s.hb + d
        omega
  | false =>
    rw [if_neg (by decide)]
    have ht : p.timerFails = true := by
      rcases ha with ha | ha
      · cases ha
      · exact ha
    refine Tok.err s.now h1 (by rw [h2]; rfl) h3 h4 h5 (Nat.le_refl _) ⟨?_, ?_⟩
    · intro h; rw [ht] at h; cases h
    · intro d hd
      have := hu d hd
      refine ⟨?_, ?_⟩
      · show s.now ≤ s.last + p.hi / 2 + hbTimeout p.f p.hi + 2 * d
        omega
      · show s.now ≤ s.now + d
        omega

theorem arm_same (s : State) (a : Nat) (b : Bool) : (s.arm a b).alive = s.alive ∧ (s.arm a b).et = s.et ∧ (s.arm a b).hb = s.hb ∧
    (s.arm a b).last = s.last ∧ (s.arm a b).now = s.now ∧ (s.arm a b).sent = s.sent ∧ (s.arm a b).start = s.start := by
  unfold State.arm
  cases b <;> exact ⟨rfl, rfl, rfl, rfl, rfl, rfl, rfl⟩

theorem init_inv {p : Par} (now et : Nat) (h1 : p.lo ≤ et) (h2 : et ≤ p.hi) {addOk : Bool} (ha : addOk = true ∨ p.timerFails = true) :
    Inv p (State.init now p.f et addOk) := by
  have m1 := hbTimeout_mono p.f h1
  have m2 := hbTimeout_mono p.f h2
  unfold State.init
  obtain ⟨e1, e2, e3, e4, e5, e6, e7⟩ := arm_same ({ now := now, alive := true, et := et, hb := hbTimeout p.f et, timers := [], errs := [], bths := [], rpcs := [], rets := [], timer := 0, call := 0, fresh := 1, sent := [], start := now } : State) now addOk
  refine ⟨fun _ => ?_, ?_, ?_, ?_, ?_, ?_, ?_⟩
  · refine arm_tok rfl rfl rfl rfl rfl m1 m2 (Nat.le_refl _) (Nat.le_refl _) ?_ ha
    intro d hd
    refine ⟨?_, ?_⟩
    · show now ≤ now + p.hi / 2 + d
      omega
    · show now ≤ now + d
      omega
  · rw [e2]; exact h1
  · rw [e2]; exact h2
  · rw [e3]; exact m1
  · rw [e3]; exact m2
  · rw [e4, e5]; exact Nat.le_refl _
  · rw [e6, e7]; exact trivial

theorem one_get {α : Type} {x y : α} {i : Nat} (h : [x][i]? = some y) : i = 0 ∧ y = x := by
  cases i with
  | zero => simp at h; exact ⟨rfl, h.symm⟩
  | succ i => simp at h

theorem fire_inv {p : Par} {s : State} (h : Inv p s) (i : Nat) : Inv p (s.fire i) := by
  unfold State.fire
  cases hk : s.timers[i]? with
  | none => exact h
  | some t =>
    dsimp only
    split
    · rename_i hdue
      refine ⟨?_, h.elo, h.ehi, h.hlo, h.hhi, h.lastLe, h.gaps⟩
      intro ha
      have ha' : s.alive = true := ha
      cases h.tok ha' with
      | timer u h1 h2 h3 h4 h5 hi hb =>
        rw [h1] at hk
        obtain ⟨hi0, rfl⟩ := one_get hk
        refine Tok.err s.now (by show s.timers.eraseIdx i = []; rw [h1, hi0]; rfl) ?_ h3 h4 h5 (Nat.le_refl _) ⟨?_, ?_⟩
        · show (if s.alive then s.errs ++ [s.now] else s.errs) = [s.now]
          rw [if_pos ha', h2]; rfl
        · intro hf
          have := hb.lower hf
          show s.last + _ ≤ s.now
          omega
        · intro d hd
          have := hb.upper d hd
          refine ⟨?_, ?_⟩
          · show s.now ≤ s.last + _ + _ + 2 * d
            omega
          · show s.now ≤ s.now + d
            omega
      | err x h1 => rw [h1] at hk; cases hk
      | bth x h1 => rw [h1] at hk; cases hk
      | rpc x h1 => rw [h1] at hk; cases hk
      | ret x h1 => rw [h1] at hk; cases hk
    · exact h

theorem onError_inv {p : Par} {s : State} (h : Inv p s) (i : Nat) : Inv p (s.onError i) := by
  unfold State.onError
  cases hk : s.errs[i]? with
  | none => exact h
  | some t =>
    dsimp only
    refine ⟨?_, h.elo, h.ehi, h.hlo, h.hhi, h.lastLe, h.gaps⟩
    intro ha
    have ha' : s.alive = true := ha
    cases h.tok ha' with
    | err x h1 h2 h3 h4 h5 hx hb =>
      rw [h2] at hk
      obtain ⟨hi0, rfl⟩ := one_get hk
      refine Tok.bth s.now h1 (by show s.errs.eraseIdx i = []; rw [h2, hi0]; rfl) ?_ h4 h5 (Nat.le_refl _) ⟨?_, ?_⟩
      · show (if s.alive then s.bths ++ [s.now] else s.bths) = [s.now]
        rw [if_pos ha', h3]; rfl
      · intro hf
        have := hb.lower hf
        show s.last + _ ≤ s.now
        omega
      · intro d hd
        have := hb.upper d hd
        refine ⟨?_, ?_⟩
        · show s.now ≤ s.last + _ + _ + 3 * d
          omega
        · show s.now ≤ s.now + d
          omega
    | timer x h1 h2 => rw [h2] at hk; cases hk
    | bth x h1 h2 => rw [h2] at hk; cases hk
    | rpc x h1 h2 => rw [h2] at hk; cases hk
    | ret x h1 h2 => rw [h2] at hk; cases hk

theorem last_def (s : State) : ∃ l, s.sent ++ [s.start] = s.last :: l := by
  unfold State.last
  cases s.sent with
  | nil => exact ⟨[], rfl⟩
  | cons a l => exact ⟨l ++ [s.start], rfl⟩

theorem beat_inv {p : Par} {s : State} (h : Inv p s) (i : Nat) : Inv p (s.beat i) := by
  unfold State.beat
  cases hk : s.bths[i]? with
  | none => exact h
  | some t =>
    dsimp only
    split
    · rename_i ha'
      cases h.tok ha' with
      | bth x h1 h2 h3 h4 h5 hx hb =>
        rw [h3] at hk
        obtain ⟨hi0, rfl⟩ := one_get hk
        refine ⟨fun _ => ?_, h.elo, h.ehi, h.hlo, h.hhi, Nat.le_refl _, ?_⟩
        · refine Tok.rpc ⟨s.fresh, s.now, s.now + s.et / 2⟩ h1 h2 (by show s.bths.eraseIdx i = []; rw [h3, hi0]; rfl)
            (by show s.rpcs ++ _ = _; rw [h4]; rfl) h5 rfl rfl ?_ ?_
          · show s.now + s.et / 2 ≤ s.now + p.hi / 2
            have := Nat.div_le_div_right (c := 2) h.ehi
            omega
          · intro d hd
            show s.now ≤ s.now + s.et / 2 + d
            omega
        · show Gaps (Apart p) (s.now :: (s.sent ++ [s.start]))
          obtain ⟨l, hl⟩ := last_def s
          have hg := h.gaps
          rw [hl] at hg ⊢
          refine ⟨⟨?_, ?_⟩, hg⟩
          · intro hf
            have := hb.lower hf
            omega
          · intro d hd
            have := hb.upper d hd
            omega
      | timer x h1 h2 h3 => rw [h3] at hk; cases hk
      | err x h1 h2 h3 => rw [h3] at hk; cases hk
      | rpc x h1 h2 h3 => rw [h3] at hk; cases hk
      | ret x h1 h2 h3 => rw [h3] at hk; cases hk
    · rename_i ha'
      exact ⟨fun ha => absurd ha ha', h.elo, h.ehi, h.hlo, h.hhi, h.lastLe, h.gaps⟩

theorem reply_inv {p : Par} {s : State} (h : Inv p s) (i : Nat) : Inv p (s.reply i) := by
  unfold State.reply
  cases hk : s.rpcs[i]? with
  | none => exact h
  | some t =>
    dsimp only
    refine ⟨?_, h.elo, h.ehi, h.hlo, h.hhi, h.lastLe, h.gaps⟩
    intro ha
    cases h.tok ha with
    | rpc x h1 h2 h3 h4 h5 hc hx hd hn =>
      rw [h4] at hk
      obtain ⟨hi0, rfl⟩ := one_get hk
      refine Tok.ret s.now h1 h2 h3 (by show s.rpcs.eraseIdx i = []; rw [h4, hi0]; rfl) (by show s.rets ++ _ = _; rw [h5]; rfl) (Nat.le_refl _) h.lastLe ?_
      intro d hdd
      have := hn d hdd
      refine ⟨?_, ?_⟩
      · show s.now ≤ s.last + _ + d
        omega
      · show s.now ≤ s.now + d
        omega
    | timer x h1 h2 h3 h4 => rw [h4] at hk; cases hk
    | err x h1 h2 h3 h4 => rw [h4] at hk; cases hk
    | bth x h1 h2 h3 h4 => rw [h4] at hk; cases hk
    | ret x h1 h2 h3 h4 => rw [h4] at hk; cases hk

theorem returned_inv {p : Par} {s : State} (h : Inv p s) (i : Nat) (higher : Bool) {addOk : Bool} (ha : addOk = true ∨ p.timerFails = true) :
    Inv p (s.returned i higher addOk) := by
  unfold State.returned
  cases hk : s.rets[i]? with
  | none => exact h
  | some a =>
    dsimp only
    split
    · rename_i hal
      split
      · exact ⟨fun hx => (nomatch hx), h.elo, h.ehi, h.hlo, h.hhi, h.lastLe, h.gaps⟩
      · obtain ⟨e1, e2, e3, e4, e5, e6, e7⟩ := arm_same ({ s with rets := s.rets.eraseIdx i } : State) a addOk
        refine ⟨fun _ => ?_, by rw [e2]; exact h.elo, by rw [e2]; exact h.ehi, by rw [e3]; exact h.hlo, by rw [e3]; exact h.hhi,
          by rw [e4, e5]; exact h.lastLe, by rw [e6, e7]; exact h.gaps⟩
        cases h.tok hal with
        | ret x h1 h2 h3 h4 h5 hx hl hu =>
          rw [h5] at hk
          obtain ⟨hi0, rfl⟩ := one_get hk
          exact arm_tok (s := { s with rets := s.rets.eraseIdx i }) h1 h2 h3 h4 (by show s.rets.eraseIdx i = []; rw [h5, hi0]; rfl) h.hlo h.hhi hl hx hu ha
        | timer x h1 h2 h3 h4 h5 => rw [h5] at hk; cases hk
        | err x h1 h2 h3 h4 h5 => rw [h5] at hk; cases hk
        | bth x h1 h2 h3 h4 h5 => rw [h5] at hk; cases hk
        | rpc x h1 h2 h3 h4 h5 => rw [h5] at hk; cases hk
    · rename_i hal
      exact ⟨fun hx => absurd hx hal, h.elo, h.ehi, h.hlo, h.hhi, h.lastLe, h.gaps⟩

theorem tick_inv {p : Par} {s : State} (h : Inv p s) (t : Nat) (ht : s.now ≤ t) (hd : ∀ d, p.delta = some d → s.onTime d t) :
    Inv p { s with now := t } := by
  refine ⟨?_, h.elo, h.ehi, h.hlo, h.hhi, Nat.le_trans h.lastLe ht, h.gaps⟩
  intro ha
  cases h.tok ha with
  | timer x h1 h2 h3 h4 h5 hi hb =>
    refine Tok.timer x h1 h2 h3 h4 h5 hi ⟨hb.lower, ?_⟩
    intro d hdd
    exact ⟨(hb.upper d hdd).1, (hd d hdd).1 x (by rw [h1]; exact List.mem_singleton.mpr rfl)⟩
  | err x h1 h2 h3 h4 h5 hx hb =>
    refine Tok.err x h1 h2 h3 h4 h5 (Nat.le_trans hx ht) ⟨hb.lower, ?_⟩
    intro d hdd
    exact ⟨(hb.upper d hdd).1, (hd d hdd).2.1 x (by rw [h2]; exact List.mem_singleton.mpr rfl)⟩
  | bth x h1 h2 h3 h4 h5 hx hb =>
    refine Tok.bth x h1 h2 h3 h4 h5 (Nat.le_trans hx ht) ⟨hb.lower, ?_⟩
    intro d hdd
    exact ⟨(hb.upper d hdd).1, (hd d hdd).2.2.1 x (by rw [h3]; exact List.mem_singleton.mpr rfl)⟩
  | rpc x h1 h2 h3 h4 h5 hc hx hdl hn =>
    refine Tok.rpc x h1 h2 h3 h4 h5 hc hx hdl ?_
    intro d hdd
    exact (hd d hdd).2.2.2.1 x (by rw [h4]; exact List.mem_singleton.mpr rfl)
  | ret x h1 h2 h3 h4 h5 hx hl hu =>
    refine Tok.ret x h1 h2 h3 h4 h5 (Nat.le_trans hx ht) hl ?_
    intro d hdd
    exact ⟨(hu d hdd).1, (hd d hdd).2.2.2.2 x (by rw [h5]; exact List.mem_singleton.mpr rfl)⟩

theorem Tok.of {p : Par} {s t : State} (h : Tok p s) (e1 : t.timers = s.timers) (e2 : t.errs = s.errs) (e3 : t.bths = s.bths) (e4 : t.rpcs = s.rpcs)
    (e5 : t.rets = s.rets) (e6 : t.last = s.last) (e7 : t.now = s.now) (e8 : t.timer = s.timer) (e9 : t.call = s.call) : Tok p t := by
  cases h with
  | timer x h1 h2 h3 h4 h5 hi hb => exact Tok.timer x (e1.trans h1) (e2.trans h2) (e3.trans h3) (e4.trans h4) (e5.trans h5) (by rw [e8]; exact hi) (hb.of e6 e7)
  | err x h1 h2 h3 h4 h5 hx hb => exact Tok.err x (e1.trans h1) (e2.trans h2) (e3.trans h3) (e4.trans h4) (e5.trans h5) (by rw [e7]; exact hx) (hb.of e6 e7)
  | bth x h1 h2 h3 h4 h5 hx hb => exact Tok.bth x (e1.trans h1) (e2.trans h2) (e3.trans h3) (e4.trans h4) (e5.trans h5) (by rw [e7]; exact hx) (hb.of e6 e7)
  | rpc x h1 h2 h3 h4 h5 hc hx hd hn =>
    exact Tok.rpc x (e1.trans h1) (e2.trans h2) (e3.trans h3) (e4.trans h4) (e5.trans h5) (by rw [e9]; exact hc) (by rw [e6]; exact hx) hd (by rw [e7]; exact hn)
  | ret x h1 h2 h3 h4 h5 hx hl hu =>
    exact Tok.ret x (e1.trans h1) (e2.trans h2) (e3.trans h3) (e4.trans h4) (e5.trans h5) (by rw [e7]; exact hx) (by rw [e6]; exact hl) (by rw [e6, e7]; exact hu)

theorem step_inv {p : Par} {s t : State} (h : Inv p s) (hs : Step p s t) : Inv p t := by
  cases hs with
  | fire i => exact fire_inv h i
  | onError i => exact onError_inv h i
  | beat i => exact beat_inv h i
  | reply i => exact reply_inv h i
  | returned i hg a ha => exact returned_inv h i hg ha
  | stop =>
    unfold State.stop
    split
    · exact ⟨fun hx => (nomatch hx), h.elo, h.ehi, h.hlo, h.hhi, h.lastLe, h.gaps⟩
    · exact h
  | die => exact ⟨fun hx => (nomatch hx), h.elo, h.ehi, h.hlo, h.hhi, h.lastLe, h.gaps⟩
  | reset et h1 h2 =>
    exact ⟨fun ha => (h.tok ha).of rfl rfl rfl rfl rfl rfl rfl rfl rfl, h1, h2, hbTimeout_mono p.f h1, hbTimeout_mono p.f h2, h.lastLe, h.gaps⟩
  | tick t ht hd => exact tick_inv h t ht hd

theorem Run.inv {p : Par} {s : State} (h : Run p s) : Inv p s := by
  induction h with
  | init now et h1 h2 a ha => exact init_inv now et h1 h2 ha
  | step _ hs ih => exact step_inv ih hs

theorem gaps_at {R : Nat → Nat → Prop} : ∀ {l1 l2 : List Nat} {a b : Nat}, Gaps R (l1 ++ a :: b :: l2) → R a b
  | [], _, _, _, h => h.1
  | [_], _, _, _, h => gaps_at (l1 := []) h.2
  | _ :: d :: l1, _, _, _, h => gaps_at (l1 := d :: l1) h.2

end Braft.Repl.Hb
