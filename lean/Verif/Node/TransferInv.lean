import Verif.Node.Transfer
import Verif.Repl.ReplicatorRun
/-! Invariants of leadership transfer. -/
set_option linter.unusedVariables false
set_option linter.unusedSimpArgs false
set_option linter.unusedSectionVars false

namespace Braft.Transfer
open Braft.Repl

/-! ### What a step of the replicator itself does to a transfer -/

/-- Either nothing changes for the transfer, or TimeoutNow is sent for the index that was waited for. -/
structure Own (s t : State) : Prop where
  last : t.last = s.last
  alive : t.alive = true → s.alive = true
  now : (t.tnow = s.tnow ∧ t.tni = s.tni) ∨ (s.alive = true ∧ 0 < s.tni ∧ t.tnow = s.tni :: s.tnow ∧ t.tni = 0)

theorem Own.refl (s : State) : Own s s := ⟨rfl, id, Or.inl ⟨rfl, rfl⟩⟩

theorem Own.frame {s t u : State} (h : Own s t) (f : Frame t u) : Own s u :=
  ⟨f.last.trans h.last, fun ha => h.alive (f.alive ▸ ha), by rw [f.tnow, f.tni]; exact h.now⟩

/-- The fields a transfer depends on are as before. -/
theorem Own.same {s t : State} (h1 : t.last = s.last) (h2 : t.alive = s.alive) (h3 : t.tnow = s.tnow) (h4 : t.tni = s.tni) : Own s t :=
  ⟨h1, fun h => h2 ▸ h, Or.inl ⟨h3, h4⟩⟩

theorem Own.via {s t u : State} (h1 : t.last = s.last) (h2 : t.alive = s.alive) (h3 : t.tnow = s.tnow) (h4 : t.tni = s.tni)
    (h : Own t u) : Own s u := by
  refine ⟨h.last.trans h1, fun ha => h2 ▸ h.alive ha, ?_⟩
  rcases h.now with ⟨a, b⟩ | ⟨a, b, c, d⟩
  · exact Or.inl ⟨a.trans h3, b.trans h4⟩
  · exact Or.inr ⟨h2 ▸ a, h4 ▸ b, by rw [c, h4, h3], d⟩

theorem Own.fire (s : State) (ha : s.alive = true) : Own s s.fire := by
  unfold State.fire
  split
  · rename_i h; exact ⟨rfl, fun _ => ha, Or.inr ⟨ha, h.1, rfl, rfl⟩⟩
  · exact Own.refl s

theorem own_returned (T : Nat) (w : Bool) (s : State) (q : Req) (r : Resp) (e : Env) : Own s (s.returned T w q r e) := by
  unfold State.returned
  dsimp only
  split
  · exact Own.same rfl rfl rfl rfl
  · rename_i hal
    split
    · exact Own.same rfl rfl rfl rfl
    · generalize hu : ({ s with out := s.out.erase q, acks := r.acks T q s.acks, bad := s.bad || !(decide (0 < ({ s with out := s.out.erase q, acks := r.acks T q s.acks } : State).min)) } : State) = u
      have hut : u.last = s.last ∧ u.alive = s.alive ∧ u.tnow = s.tnow ∧ u.tni = s.tni := by subst hu; exact ⟨rfl, rfl, rfl, rfl⟩
      have hua : u.alive = true := by
        rw [hut.2.1]
        cases h : s.alive with
        | true => rfl
        | false => rw [h] at hal; exact absurd rfl hal
      refine Own.via hut.1 hut.2.1 hut.2.2.1 hut.2.2.2 ?_
      cases r with
      | failed => exact ((Own.refl u).frame (frame_reset u)).frame (frame_block _)
      | resp b t l =>
        cases b with
        | false =>
          dsimp only
          split
          · obtain ⟨c, x, e2⟩ := notifyErr_eq u.reset .perm
            rw [e2]; exact ⟨rfl, (fun h => by cases h), Or.inl ⟨rfl, rfl⟩⟩
          · refine Own.frame ?_ (frame_sendEmpty _ _ _)
            unfold State.backoff; dsimp only
            split
            · exact Own.same rfl rfl rfl rfl
            · split <;> exact Own.same rfl rfl rfl rfl
        | true =>
          dsimp only
          split
          · exact (Own.refl u).frame (frame_reset u)
          · refine Own.frame ?_ (frame_sendEntries _ _ _)
            rw [succeeded_eq]
            obtain ⟨c, x, e3⟩ := notifyOk_eq (u.poppedTo q) e.timerRuns
            rw [e3]
            have e4 : (u.poppedTo q).last = u.last ∧ (u.poppedTo q).alive = u.alive ∧ (u.poppedTo q).tnow = u.tnow ∧ (u.poppedTo q).tni = u.tni := by
              unfold State.poppedTo; dsimp only; split <;> exact ⟨rfl, rfl, rfl, rfl⟩
            refine Own.via ?_ ?_ ?_ ?_ (Own.fire _ ?_)
            · exact e4.1
            · exact e4.2.1
            · exact e4.2.2.1
            · exact e4.2.2.2
            · exact e4.2.1.trans hua

theorem own_installed (w : Bool) (s : State) (i : Nat) (ok : Bool) (e : Env) : Own s (s.installed w i ok e) := by
  unfold State.installed
  dsimp only
  split
  · exact Own.same rfl rfl rfl rfl
  · rename_i hal
    split
    · exact Own.frame (t := { s with installs := s.installs.erase i, snaps := (if ok = true then i :: s.snaps else s.snaps), reader := false })
        (Own.same rfl rfl rfl rfl) (frame_block _)
    · generalize hu : ({ s with installs := s.installs.erase i, snaps := (if ok = true then i :: s.snaps else s.snaps), reader := false, next := i + 1, hasSucc := true } : State) = u
      have hut : u.last = s.last ∧ u.alive = s.alive ∧ u.tnow = s.tnow ∧ u.tni = s.tni := by subst hu; exact ⟨rfl, rfl, rfl, rfl⟩
      have hua : u.alive = true := by
        rw [hut.2.1]
        cases h : s.alive with
        | true => rfl
        | false => rw [h] at hal; exact absurd rfl hal
      obtain ⟨c, x, e3⟩ := notifyOk_eq u e.timerRuns
      refine Own.frame (t := (u.notifyOk e.timerRuns).fire) ?_ (frame_sendEntries _ w e)
      refine Own.via hut.1 hut.2.1 hut.2.2.1 hut.2.2.2 ?_
      rw [e3]
      refine Own.via (t := { u with catching := c, ran := x }) rfl rfl rfl rfl (Own.fire _ hua)

theorem own_wake (w : Bool) (s : State) (e : Env) : Own s (s.wake w e) := by
  unfold State.wake
  split
  · exact Own.refl s
  · dsimp only
    split
    · exact Own.same rfl rfl rfl rfl
    · exact Own.frame (t := { s with waits := s.waits - 1, waitId := false }) (Own.same rfl rfl rfl rfl) (frame_sendEntries _ w e)

theorem own_unblock (s : State) : Own s s.unblock := by
  unfold State.unblock; split <;> exact Own.same rfl rfl rfl rfl

theorem own_resume (w : Bool) (s : State) (io : IOut) : Own s (s.resume w io) := by
  unfold State.resume
  split
  · exact Own.refl s
  · dsimp only
    split
    · exact Own.same rfl rfl rfl rfl
    · exact Own.frame (t := { s with conts := s.conts - 1 }) (Own.same rfl rfl rfl rfl) (frame_sendEmpty _ w io)

theorem own_waitCaughtUp (s : State) (m : Nat) : Own s (s.waitCaughtUp m) := by
  unfold State.waitCaughtUp
  dsimp only
  split
  · exact Own.same rfl rfl rfl rfl
  · split
    · exact Own.same rfl rfl rfl rfl
    · split <;> exact Own.same rfl rfl rfl rfl

theorem own_catchTimeout (s : State) : Own s s.catchTimeout := by
  unfold State.catchTimeout
  obtain ⟨c, x, e⟩ := notifyErr_eq s .timedout
  rw [e]
  split <;> exact Own.same rfl rfl rfl rfl

theorem own_compact (s : State) (snap first : Nat) : Own s (s.compact snap first) := by
  unfold State.compact; split <;> exact Own.same rfl rfl rfl rfl

/-! ### The choice of a candidate -/

section
variable {P : Type} [DecidableEq P] {wit : P → Bool} {c : Conf P}

/-- A peer that can be woken. -/
def Eligible (wit : P → Bool) (c : Conf P) (i : Info P) : Prop :=
  c.has i.peer = true ∧ i.alive = true ∧ i.errs = 0 ∧ wit i.peer = false

theorem findLoop_spec (l : List (Info P)) : ∀ best : Option P × Nat,
    best.2 ≤ (findLoop wit c l best).2 ∧
    (∀ i ∈ l, Eligible wit c i → i.next ≤ (findLoop wit c l best).2) ∧
    (findLoop wit c l best = best ∨
      ∃ i ∈ l, Eligible wit c i ∧ findLoop wit c l best = (some i.peer, i.next) ∧ best.2 < i.next) := by
  induction l with
  | nil => intro best; exact ⟨Nat.le_refl _, fun i hi => by simp at hi, Or.inl rfl⟩
  | cons a l ih =>
    intro best
    unfold findLoop
    by_cases h1 : (!c.has a.peer) = true
    · rw [if_pos h1]
      obtain ⟨x, y, z⟩ := ih best
      refine ⟨x, ?_, ?_⟩
      · intro i hi he
        rcases List.mem_cons.1 hi with e | hi
        · subst e; rw [he.1] at h1; exact absurd h1 (by decide)
        · exact y i hi he
      · rcases z with z | ⟨i, hi, z⟩
        · exact Or.inl z
        · exact Or.inr ⟨i, List.mem_cons_of_mem _ hi, z⟩
    · rw [if_neg h1]
      have hc : c.has a.peer = true := by cases h : c.has a.peer <;> simp_all
      by_cases h2 : a.alive = true ∧ a.errs = 0 ∧ best.2 < a.nextIndex ∧ (!wit a.peer) = true
      · rw [if_pos h2]
        have hn : a.nextIndex = a.next := by unfold Info.nextIndex; rw [if_pos h2.1]
        rw [hn] at h2 ⊢
        have hw : wit a.peer = false := by cases h : wit a.peer <;> simp_all
        have ha : Eligible wit c a := ⟨hc, h2.1, h2.2.1, hw⟩
        obtain ⟨x, y, z⟩ := ih (some a.peer, a.next)
        dsimp only at x
        refine ⟨by omega, ?_, ?_⟩
        · intro i hi he
          rcases List.mem_cons.1 hi with e | hi
          · subst e; exact x
          · exact y i hi he
        · right
          rcases z with z | ⟨i, hi, z1, z2, z3⟩
          · exact ⟨a, List.mem_cons_self, ha, z, h2.2.2.1⟩
          · exact ⟨i, List.mem_cons_of_mem _ hi, z1, z2, by dsimp only at z3; omega⟩
      · rw [if_neg h2]
        obtain ⟨x, y, z⟩ := ih best
        refine ⟨x, ?_, ?_⟩
        · intro i hi he
          rcases List.mem_cons.1 hi with e | hi
          · subst e
            have : ¬ best.2 < i.next := by
              intro hlt
              apply h2
              refine ⟨he.2.1, he.2.2.1, ?_, by rw [he.2.2.2]; rfl⟩
              unfold Info.nextIndex; rw [if_pos he.2.1]; exact hlt
            omega
          · exact y i hi he
        · rcases z with z | ⟨i, hi, z⟩
          · exact Or.inl z
          · exact Or.inr ⟨i, List.mem_cons_of_mem _ hi, z⟩

end

/-! ### The invariant -/

section
variable {P : Type} [DecidableEq P] {wit : P → Bool} {any self p : P} {T : Nat} {w : Bool}

/-- Completed transfers: started to a peer and ended by the timer of that transfer; then perhaps one that was not ended. -/
def Paired (target : Option P) : List (Bool × P) → Prop
  | [] => target = none
  | [x] => x.1 = true ∧ target = some x.2
  | x :: y :: r => x.1 = true ∧ y = (false, x.2) ∧ Paired target r

theorem Paired.start {l : List (Bool × P)} (h : Paired none l) (q : P) : Paired (some q) (l ++ [(true, q)]) := by
  match l, h with
  | [], _ => exact ⟨rfl, rfl⟩
  | [x], h => exact absurd h.2 (by simp)
  | x :: y :: r, h => exact ⟨h.1, h.2.1, Paired.start h.2.2 q⟩

theorem Paired.stop {l : List (Bool × P)} {q : P} (h : Paired (some q) l) : Paired none (l ++ [(false, q)]) := by
  match l, h with
  | [x], h =>
    have : x.2 = q := (Option.some.inj h.2).symm
    exact ⟨h.1, by rw [this], rfl⟩
  | x :: y :: r, h => exact ⟨h.1, h.2.1, Paired.stop h.2.2⟩

structure GInv (p : P) (T : Nat) (w : Bool) (g : Group P) : Prop where
  run : Run T w false g.r
  /-- The replicator waits for an index only during a transfer to its peer, and then for the last index. -/
  tni : g.r.alive = true → 0 < g.r.tni → g.role = .transferring ∧ g.target = some p ∧ g.r.tni = g.r.last
  dead : g.role = .other → g.r.alive = false
  lead : g.role = .leader → g.target = none ∧ ∀ x ∈ g.timers, x.1 ≠ T
  trans : g.role = .transferring → ∃ q, g.target = some q ∧ ∀ x ∈ g.timers, x.1 = T → x = (T, q)
  cnt : g.role = .transferring → (g.timers.filter (fun x => decide (x.1 = T))).length = 1
  log : g.role ≠ .other → Paired g.target g.log

/-- A step of the replicator itself. -/
theorem GInv.own {g : Group P} (h : GInv p T w g) {t : State} (hr : Run T w false t) (ho : Own g.r t) :
    GInv p T w { g with r := t } where
  run := hr
  tni := by
    intro ha hp
    have ha' := ho.alive ha
    rcases ho.now with ⟨_, h2⟩ | ⟨_, _, _, h2⟩
    · obtain ⟨x, y, z⟩ := h.tni ha' (h2 ▸ hp)
      exact ⟨x, y, by show t.tni = t.last; rw [h2, ho.last]; exact z⟩
    · have : t.tni = 0 := h2
      have hp' : 0 < t.tni := hp
      omega
  dead := fun hr' => by
    cases e : t.alive with
    | false => rfl
    | true => have := ho.alive e; rw [h.dead hr'] at this; cases this
  lead := h.lead
  trans := h.trans
  cnt := h.cnt
  log := h.log

theorem GInv.init (timers : List (Nat × P)) {first last snap : Nat} (io : IOut) (h : 0 < first) (h2 : first ≤ snap + 1) (h3 : snap ≤ last) :
    GInv p T w (Group.init T timers (State.start first last snap w io)) where
  run := Run.start first last snap io h h2 h3
  tni := by
    intro _ hp
    have : (Group.init T timers (State.start first last snap w io)).r.tni = 0 := by
      show (State.start first last snap w io).tni = 0
      unfold State.start
      rw [(frame_sendEmpty _ w io).tni]
    omega
  dead := fun h => by cases h
  lead := fun _ => ⟨rfl, fun x hx => by
    have := (List.mem_filter.1 hx).2
    exact of_decide_eq_true this⟩
  trans := fun h => by cases h
  cnt := fun h => by cases h
  log := fun _ => rfl

/-- What transfer_leadership_to returns together with a peer. -/
theorem transferTo_some {role : Role} {busy : Bool} {c : Conf P} {reps : List (Info P)} {peer q : P}
    (h : (transferTo wit any self role busy c reps peer).2 = some q) : role = .leader ∧ busy = false := by
  unfold transferTo at h
  cases role with
  | leader =>
    refine ⟨rfl, ?_⟩
    cases busy with
    | false => rfl
    | true => simp at h
  | transferring => cases h
  | other => cases h

theorem GInv.transferTo {g : Group P} (h : GInv p T w g) (c : Conf P) (reps : List (Info P)) (peer : P) :
    GInv p T w (g.transferTo wit any self p T c reps peer) := by
  unfold Group.transferTo
  cases hq : (Transfer.transferTo wit any self g.role g.busy c reps peer).2 with
  | none => exact h
  | some q =>
    obtain ⟨hl, hb⟩ := transferTo_some hq
    obtain ⟨ht, htm⟩ := h.lead hl
    dsimp only
    refine ⟨?_, ?_, (fun hh => by cases hh), (fun hh => by cases hh), fun _ => ⟨q, rfl, ?_⟩, fun _ => ?_, fun _ => ?_⟩
    · show Run T w false (if q = p then g.r.transfer else g.r)
      split
      · exact h.run.step (.transfer _)
      · exact h.run
    · show (if q = p then g.r.transfer else g.r).alive = true → 0 < (if q = p then g.r.transfer else g.r).tni →
        Role.transferring = .transferring ∧ some q = some p ∧ (if q = p then g.r.transfer else g.r).tni = (if q = p then g.r.transfer else g.r).last
      by_cases hqp : q = p
      · rw [if_pos hqp]
        intro ha hp
        refine ⟨rfl, by rw [hqp], ?_⟩
        unfold State.transfer at ha hp ⊢
        split
        · rename_i hd
          rw [if_pos hd] at ha
          rw [ha] at hd; exact absurd hd (by decide)
        · rename_i hd
          rw [if_neg hd] at hp
          dsimp only at hp ⊢
          split
          · rename_i h1
            rw [if_pos h1] at hp
            have : (0:Nat) < 0 := hp
            omega
          · rfl
      · rw [if_neg hqp]
        intro ha hp
        obtain ⟨x, _, _⟩ := h.tni ha hp
        rw [hl] at x; cases x
    · intro x hx hxT
      rcases List.mem_cons.1 hx with e | hx
      · exact e
      · exact absurd hxT (htm x hx)
    · show ((List.filter (fun x : Nat × P => decide (x.1 = T)) ((T, q) :: g.timers))).length = 1
      rw [List.filter_cons_of_pos (by simp)]
      have : g.timers.filter (fun x => decide (x.1 = T)) = [] := by
        rw [List.filter_eq_nil_iff]
        intro x hx; simpa using htm x hx
      rw [this]; rfl
    · have hp0 := h.log (by rw [hl]; intro hh; cases hh)
      rw [ht] at hp0
      exact hp0.start q

theorem filter_erase_len {l : List (Nat × P)} {x : Nat × P} (hx : x ∈ l) (hT : x.1 = T)
    (h1 : (l.filter (fun y => decide (y.1 = T))).length = 1) : ∀ y ∈ l.erase x, y.1 ≠ T := by
  have hp : (x :: l.erase x).Perm l := (List.perm_cons_erase hx).symm
  have hp2 := (hp.filter (fun y => decide (y.1 = T))).length_eq
  rw [h1, List.filter_cons_of_pos (by simpa using hT)] at hp2
  have h0 : ((l.erase x).filter (fun y => decide (y.1 = T))).length = 0 := by
    simp only [List.length_cons] at hp2; omega
  have h3 := List.eq_nil_of_length_eq_zero h0
  rw [List.filter_eq_nil_iff] at h3
  intro y hy; simpa using h3 y hy

theorem GInv.timeout {g : Group P} (h : GInv p T w g) {x : Nat × P} (hx : x ∈ g.timers) : GInv p T w (g.timeout p T x) := by
  unfold Group.timeout
  dsimp only
  by_cases hT : x.1 = T
  · rw [if_pos hT]
    -- the replicator
    have hrep : ∀ (b : Bool), Run T w false (if b then g.r.stopTransfer else g.r) := by
      intro b; cases b
      · exact h.run
      · exact h.run.step (.stopTransfer _)
    by_cases hr : g.role = .transferring
    · rw [if_pos hr]
      obtain ⟨q, hq1, hq2⟩ := h.trans hr
      have hxq := hq2 x hx hT
      have hpair := h.log (by rw [hr]; intro hh; cases hh)
      rw [hq1] at hpair
      have hlog : Paired none (g.log ++ [(false, x.2)]) := by rw [hxq]; exact hpair.stop
      have htm := filter_erase_len hx hT (h.cnt hr)
      by_cases hp : x.2 = p ∧ g.role ≠ .other
      · rw [if_pos hp]
        exact ⟨h.run.step (.stopTransfer _), fun _ hh => absurd hh (Nat.lt_irrefl 0), (fun hh => by cases hh), fun _ => ⟨rfl, htm⟩,
          (fun hh => by cases hh), (fun hh => by cases hh), fun _ => hlog⟩
      · rw [if_neg hp]
        refine ⟨h.run, fun ha hp' => ?_, (fun hh => by cases hh), fun _ => ⟨rfl, htm⟩, (fun hh => by cases hh), (fun hh => by cases hh), fun _ => hlog⟩
        exfalso
        obtain ⟨_, hh, _⟩ := h.tni ha hp'
        rw [hq1] at hh
        apply hp
        refine ⟨?_, by rw [hr]; intro hh; cases hh⟩
        rw [hxq]; exact Option.some.inj hh
    · rw [if_neg hr]
      have hother : g.role = .other := by
        cases e : g.role with
        | leader => exact absurd hT ((h.lead e).2 x hx)
        | transferring => exact absurd e hr
        | other => rfl
      have hn : ¬ (x.2 = p ∧ g.role ≠ .other) := fun hh => hh.2 hother
      rw [if_neg hn]
      exact ⟨h.run, h.tni, h.dead, (fun hh => by rw [hother] at hh; cases hh), (fun hh => absurd hh hr), (fun hh => absurd hh hr),
        fun hh => absurd hother hh⟩
  · rw [if_neg hT]
    refine ⟨h.run, h.tni, h.dead, fun hh => ⟨(h.lead hh).1, fun y hy => (h.lead hh).2 y (List.mem_of_mem_erase hy)⟩, fun hh => ?_, fun hh => ?_, h.log⟩
    · obtain ⟨q, hq1, hq2⟩ := h.trans hh
      exact ⟨q, hq1, fun y hy => hq2 y (List.mem_of_mem_erase hy)⟩
    · have h1 := h.cnt hh
      have hp : (x :: g.timers.erase x).Perm g.timers := (List.perm_cons_erase hx).symm
      have hp2 := (hp.filter (fun y => decide (y.1 = T))).length_eq
      rw [h1, List.filter_cons_of_neg (by simpa using hT)] at hp2
      exact hp2

theorem GInv.append {g : Group P} (h : GInv p T w g) (k : Nat) (busy : Bool) : GInv p T w (g.append k busy) := by
  unfold Group.append
  split
  · rename_i hl
    refine ⟨h.run.step (.append _ k), fun ha hp => ?_, h.dead, h.lead, h.trans, h.cnt, h.log⟩
    obtain ⟨x, _, _⟩ := h.tni ha hp
    rw [hl] at x; cases x
  · exact h

theorem GInv.stepDown {g : Group P} (h : GInv p T w g) (del : Bool) : GInv p T w (g.stepDown T del) := by
  have hd : g.r.stop.alive = false := by
    unfold State.stop
    cases e : g.r.alive with
    | true => rfl
    | false => exact e
  refine ⟨h.run.step (.stop _), fun ha => ?_, fun _ => hd, (fun hh => by cases hh), (fun hh => by cases hh), (fun hh => by cases hh), fun hh => absurd rfl hh⟩
  have : g.r.stop.alive = true := ha
  rw [hd] at this; cases this

theorem GInv.step {g g' : Group P} (h : GInv p T w g) (hs : GStep wit any self p T w g g') : GInv p T w g' := by
  cases hs with
  | transferTo c reps peer => exact h.transferTo c reps peer
  | timeout x hx => exact h.timeout hx
  | append k busy => exact h.append k busy
  | stepDown del => exact h.stepDown del
  | returned q r e hq => exact h.own (h.run.step (.returned _ q r e hq)) (own_returned T w _ q r e)
  | installed i ok e hi => exact h.own (h.run.step (.installed _ i ok e hi)) (own_installed w _ i ok e)
  | wake e => exact h.own (h.run.step (.wake _ e)) (own_wake w _ e)
  | unblock => exact h.own (h.run.step (.unblock _)) (own_unblock _)
  | resume io => exact h.own (h.run.step (.resume _ io)) (own_resume w _ io)
  | waitCaughtUp m => exact h.own (h.run.step (.waitCaughtUp _ m)) (own_waitCaughtUp _ m)
  | catchTimeout => exact h.own (h.run.step (.catchTimeout _)) (own_catchTimeout _)
  | compact snap first => exact h.own (h.run.step (.compact _ snap first)) (own_compact _ snap first)

theorem GRun.inv {g : Group P} (h : GRun wit any self p T w g) : GInv p T w g := by
  induction h with
  | start first last snap io timers h h2 h3 => exact GInv.init timers io h h2 h3
  | step _ hs ih => exact ih.step hs

end
end Braft.Transfer
