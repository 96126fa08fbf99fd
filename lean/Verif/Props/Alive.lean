import Verif.Node.Alive
/-!
C65: a leader goes on to lead only if it is in contact with a majority.
-/
set_option linter.unusedVariables false

namespace Braft.Props
open Braft.Alive

variable {N : Type} [DecidableEq N] {me : N} {witness : Bool}

theorem aliveCount_eq (ts : N → Nat) (et now : Nat) (l : List N) :
    aliveCount me ts et now l = l.countP (fun p => decide (p = me ∨ now ≤ ts p + et)) := by
  induction l with
  | nil => rfl
  | cons p l ih =>
    unfold aliveCount
    rw [List.countP_cons, ih]
    by_cases h : p = me
    · rw [if_pos h, if_pos (by simp [h])]
    · by_cases h2 : now - ts p ≤ et
      · rw [if_neg h, if_pos h2, if_pos (by simp; right; omega)]
      · rw [if_neg h, if_neg h2, if_neg (by simp; exact ⟨h, by omega⟩)]; rfl

theorem dead_iff (ts : N → Nat) (et now : Nat) (l : List N) :
    dead me ts et now l = false ↔ Majority l (fun p => decide (p = me ∨ now ≤ ts p + et)) := by
  unfold dead Majority
  rw [aliveCount_eq, Bool.not_eq_false', decide_eq_true_eq]
  omega

/-- C65. The check at time `now`: the node goes on to lead iff it led, it is no witness, and a majority of the configuration, and of
the old one during a joint change, is alive: it is the node itself or its last contact was at most the election timeout ago. -/
theorem stepdown_check (s : St N) : (eff me witness s .check).leads = true ↔
    s.leads = true ∧ witness = false ∧ Majority s.conf (fun p => decide (p = me ∨ s.now ≤ s.ts p + s.et)) ∧
      (s.old ≠ [] → Majority s.old (fun p => decide (p = me ∨ s.now ≤ s.ts p + s.et))) := by
  rw [← dead_iff, ← dead_iff]
  show (handleStepdown me witness s).leads = true ↔ _
  unfold handleStepdown
  cases hl : s.leads with
  | false => simp [hl]
  | true =>
    rw [if_neg (by simp)]
    dsimp only
    cases witness <;> cases dead me s.ts s.et s.now s.conf <;> cases dead me s.ts s.et s.now s.old <;>
      by_cases ho : s.old = [] <;> simp [ho]

/-- A majority of `l` is the node itself or was in contact at `t` or later. -/
def Heard (me : N) (seen : List (N × Nat)) (l : List N) (t : Nat) : Prop :=
  ∃ S : N → Bool, Majority l S ∧ ∀ p, S p = true → p = me ∨ ∃ x, (p, x) ∈ seen ∧ t ≤ x

theorem Heard.mono {seen seen' : List (N × Nat)} {l : List N} {t : Nat} (h : Heard me seen l t) (hs : ∀ x ∈ seen, x ∈ seen') :
    Heard me seen' l t := by
  obtain ⟨S, h1, h2⟩ := h
  exact ⟨S, h1, fun p hp => (h2 p hp).imp id (fun ⟨x, h3, h4⟩ => ⟨x, hs _ h3, h4⟩)⟩

structure AInv (me : N) (witness : Bool) (s : St N) : Prop where
  ts : ∀ p, s.ts p = 0 ∨ (p, s.ts p) ∈ s.seen
  past : ∀ x ∈ s.seen, x.2 ≤ s.now
  last : ∀ c conf old et, s.last = some (c, conf, old, et) → c ≤ s.now ∧ (s.leads = true → witness = false ∧
    (et < c → Heard me s.seen conf (c - et) ∧ (old ≠ [] → Heard me s.seen old (c - et))))

theorem heard_of {s : St N} (h : AInv me witness s) (hn : s.et < s.now) (l : List N)
    (hm : Majority l (fun p => decide (p = me ∨ s.now ≤ s.ts p + s.et))) : Heard me s.seen l (s.now - s.et) := by
  refine ⟨_, hm, fun p hp => ?_⟩
  simp only [decide_eq_true_eq] at hp
  rcases hp with hp | hp
  · exact Or.inl hp
  · right
    rcases h.ts p with h0 | h0
    · omega
    · exact ⟨_, h0, by omega⟩

theorem AInv.step {s : St N} (h : AInv me witness s) (a : Act N) (hp : pre s a) : AInv me witness (eff me witness s a) := by
  have grow : ∀ (s' : St N), s'.now = s.now → s'.leads = s.leads → s'.last = s.last → (∀ x ∈ s.seen, x ∈ s'.seen) →
      (∀ p, s'.ts p = 0 ∨ (p, s'.ts p) ∈ s'.seen) → (∀ x ∈ s'.seen, x.2 ≤ s'.now) → AInv me witness s' := by
    intro s' h1 h2 h3 h4 h5 h6
    refine ⟨h5, h6, fun c conf old et hc => ?_⟩
    rw [h3] at hc
    rw [h1, h2]
    obtain ⟨g1, g2⟩ := h.last c conf old et hc
    refine ⟨g1, fun hl => ⟨(g2 hl).1, fun he => ?_⟩⟩
    obtain ⟨g3, g4⟩ := (g2 hl).2 he
    exact ⟨g3.mono h4, fun ho => (g4 ho).mono h4⟩
  cases a with
  | tick t =>
    exact ⟨h.ts, fun x hx => Nat.le_trans (h.past x hx) hp,
      fun c conf old et hc => ⟨Nat.le_trans (h.last c conf old et hc).1 hp, (h.last c conf old et hc).2⟩⟩
  | start p =>
    refine grow _ rfl rfl rfl (fun x hx => List.mem_cons_of_mem _ hx) ?_ ?_
    · intro q
      show setTs s.ts p (later 0 s.now) q = 0 ∨ (q, setTs s.ts p (later 0 s.now) q) ∈ (p, s.now) :: s.seen
      unfold setTs
      by_cases hq : q = p
      · rw [if_pos hq]
        unfold later
        by_cases hn : s.now > 0
        · rw [if_pos hn, hq]; exact Or.inr List.mem_cons_self
        · rw [if_neg hn]; exact Or.inl rfl
      · rw [if_neg hq]
        exact (h.ts q).imp id (List.mem_cons_of_mem _)
    · intro x hx
      rcases List.mem_cons.1 hx with rfl | hx
      · exact Nat.le_refl _
      · exact h.past x hx
  | stop p =>
    refine grow _ rfl rfl rfl (fun x hx => hx) ?_ h.past
    intro q
    show setTs s.ts p 0 q = 0 ∨ _
    unfold setTs
    by_cases hq : q = p
    · rw [if_pos hq]; exact Or.inl rfl
    · rw [if_neg hq]
      have := h.ts q
      show s.ts q = 0 ∨ (q, setTs s.ts p 0 q) ∈ s.seen
      unfold setTs
      rw [if_neg hq]; exact this
  | answered p sent =>
    refine grow _ rfl rfl rfl (fun x hx => List.mem_cons_of_mem _ hx) ?_ ?_
    · intro q
      show setTs s.ts p (later (s.ts p) sent) q = 0 ∨ (q, setTs s.ts p (later (s.ts p) sent) q) ∈ (p, sent) :: s.seen
      unfold setTs
      by_cases hq : q = p
      · rw [if_pos hq]
        unfold later
        by_cases hn : sent > s.ts p
        · rw [if_pos hn, hq]; exact Or.inr List.mem_cons_self
        · rw [if_neg hn, hq]
          exact (h.ts p).imp id (List.mem_cons_of_mem _)
      · rw [if_neg hq]
        exact (h.ts q).imp id (List.mem_cons_of_mem _)
    · intro x hx
      rcases List.mem_cons.1 hx with rfl | hx
      · exact hp
      · exact h.past x hx
  | setConf conf old => exact grow _ rfl rfl rfl (fun x hx => hx) h.ts h.past
  | retime et => exact grow _ rfl rfl rfl (fun x hx => hx) h.ts h.past
  | quit =>
    exact ⟨h.ts, h.past, fun c conf old et hc => ⟨(h.last c conf old et hc).1, fun hl => by cases hl⟩⟩
  | check =>
    by_cases hl : s.leads = false
    · have : eff me witness s .check = s := by
        show handleStepdown me witness s = s
        unfold handleStepdown; rw [if_pos hl]
      rw [this]; exact h
    · have hkey := stepdown_check (me := me) (witness := witness) s
      have e : ∃ l, eff me witness s .check = { s with leads := l, last := some (s.now, s.conf, s.old, s.et) } := by
        refine ⟨(handleStepdown me witness s).leads, ?_⟩
        show handleStepdown me witness s = _
        unfold handleStepdown; rw [if_neg hl]
      obtain ⟨l, e⟩ := e
      rw [e] at hkey ⊢
      refine ⟨h.ts, h.past, fun c conf old et hc => ?_⟩
      cases hc
      refine ⟨Nat.le_refl _, fun hl' => ?_⟩
      obtain ⟨_, hw, h1, h2⟩ := hkey.1 hl'
      exact ⟨hw, fun he => ⟨heard_of h he _ h1, fun ho => heard_of h he _ (h2 ho)⟩⟩

theorem alive_inv {s : St N} (h : Run me witness s) : AInv me witness s := by
  induction h with
  | init now et conf old => exact ⟨fun _ => Or.inl rfl, fun x hx => (by cases hx), fun _ _ _ _ hc => (by cases hc)⟩
  | step a _ hp ih => exact ih.step a hp

/-- C65. A node that leads at `now` and whose last check, at time `c`, was at most `gap` ago: a majority of the configuration at
that time, and of the old one during a joint change, is the node itself or has answered an RPC that was sent at
`now - gap - election timeout` or later (or its replicator has been started since). A leader that is cut off from a majority leads for
no longer than `gap` and the election timeout. (The host has been up for longer than the election timeout.) -/
theorem leader_in_contact {s : St N} (h : Run me witness s) (hl : s.leads = true) {c et : Nat} {conf old : List N}
    (hc : s.last = some (c, conf, old, et)) (gap : Nat) (hg : s.now ≤ c + gap) (hu : et < c) :
    witness = false ∧ Heard me s.seen conf (s.now - gap - et) ∧ (old ≠ [] → Heard me s.seen old (s.now - gap - et)) := by
  obtain ⟨h1, h2⟩ := (alive_inv h).last c conf old et hc
  obtain ⟨hw, h3⟩ := h2 hl
  obtain ⟨h4, h5⟩ := h3 hu
  have weak : ∀ l, Heard me s.seen l (c - et) → Heard me s.seen l (s.now - gap - et) := by
    rintro l ⟨S, g1, g2⟩
    exact ⟨S, g1, fun p hp => (g2 p hp).imp id (fun ⟨x, g3, g4⟩ => ⟨x, g3, by omega⟩)⟩
  exact ⟨hw, weak _ h4, fun ho => weak _ (h5 ho)⟩

/-- C65. The check changes nothing but the role, and a leader in contact with majorities is not disturbed. -/
theorem contact_keeps_leader (s : St N) (hl : s.leads = true) (hw : witness = false)
    (hc : Majority s.conf (fun p => decide (p = me ∨ s.now ≤ s.ts p + s.et)))
    (ho : s.old ≠ [] → Majority s.old (fun p => decide (p = me ∨ s.now ≤ s.ts p + s.et))) :
    (eff me witness s .check).leads = true := (stepdown_check s).2 ⟨hl, hw, hc, ho⟩

/-- C65. last_rpc_send_timestamp is the latest contact since the replicator was started: no answer makes it go back. -/
theorem contact_is_latest (s : St N) (p : N) (sent : Nat) :
    (eff me witness s (.answered p sent)).ts p = max (s.ts p) sent ∧
    ∀ q, q ≠ p → (eff me witness s (.answered p sent)).ts q = s.ts q := by
  constructor
  · show (if p = p then later (s.ts p) sent else s.ts p) = _
    rw [if_pos rfl]; unfold later
    split <;> omega
  · intro q hq
    show (if q = p then _ else s.ts q) = _
    rw [if_neg hq]

namespace AliveEx

/-- 0 leads 0, 1, 2 with timeout 10. At 1000 both are contacted; 1 answers the RPC sent at 1008, an old answer comes late; the check
at 1015 is passed, the check at 1025 is not. -/
def s0 : St (Fin 3) := ⟨1000, true, [0, 1, 2], [], 10, fun _ => 0, [], none⟩
def acts : List (Act (Fin 3)) := [.start 1, .start 2, .tick 1010, .answered 1 1008, .answered 1 1001, .tick 1015, .check, .tick 1020]
def s1 : St (Fin 3) := acts.foldl (eff 0 false) s0

theorem run1 : Run (0 : Fin 3) false s1 := by
  have h0 : Run (0 : Fin 3) false s0 := Run.init _ _ _ _
  have h1 := h0.step (.start 1) trivial
  have h2 := h1.step (.start 2) trivial
  have h3 := h2.step (.tick 1010) (show 1000 ≤ 1010 by decide)
  have h4 := h3.step (.answered 1 1008) (show 1008 ≤ 1010 by decide)
  have h5 := h4.step (.answered 1 1001) (show 1001 ≤ 1010 by decide)
  have h6 := h5.step (.tick 1015) (show 1010 ≤ 1015 by decide)
  have h7 := h6.step .check trivial
  exact h7.step (.tick 1020) (show 1015 ≤ 1020 by decide)

example : s1.leads = true ∧ s1.last = some (1015, [0, 1, 2], [], 10) ∧ s1.now ≤ 1015 + 5 ∧ 10 < 1015 ∧ s1.ts 1 = 1008 ∧
    (eff 0 false (eff 0 false s1 (.tick 1025)) .check).leads = false ∧
    (eff 0 true s1 .check).leads = false := by decide

end AliveEx

end Braft.Props
