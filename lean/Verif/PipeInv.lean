import Verif.Pipe
/-
Invariant of the histories of Pipe.lean.
-/
set_option linter.unusedSectionVars false
set_option linter.unusedSimpArgs false
set_option linter.unusedVariables false

namespace Braft.Pipe
open Readonly (Role)
open Apply (Task)
variable {P D C : Type} [DecidableEq P]

/-! ### Events -/

theorem shown_append (x y : List (Fsm.Ev D C)) : shown (x ++ y) = shown x ++ shown y := by
  induction x with
  | nil => rfl
  | cons e x ih =>
    cases e with
    | apply i d c => cases c <;> simp [shown, ih]
    | _ => simp [shown, ih]

theorem failed_append (x y : List (Fsm.Ev D C)) : failed (x ++ y) = failed x ++ failed y := by
  induction x with
  | nil => rfl
  | cons e x ih => cases e <;> simp [failed, ih]

theorem shown_told (x : List (Fsm.Ev D C)) : shown (Fsm.told x) = shown x := by
  induction x with
  | nil => rfl
  | cons e x ih =>
    cases e with
    | apply i d c => cases c <;> simp [shown, Fsm.told, ih]
    | _ => simp [shown, Fsm.told, ih]

theorem failed_plain {x : List (Fsm.Ev D C)} (h : ∀ e ∈ x, e.plain = true) : failed x = [] := by
  induction x with
  | nil => rfl
  | cons e x ih =>
    have h0 := h e (by simp)
    have hx := ih (fun e he => h e (by simp [he]))
    cases e <;> first | (simp only [failed]; exact hx) | cases h0

theorem failed_map (l : List C) : failed (l.map (Fsm.Ev.failed (D := D))) = l := by
  induction l with
  | nil => rfl
  | cons a l ih => simp [failed, ih]

theorem shown_map (l : List C) : shown (l.map (Fsm.Ev.failed (D := D))) = [] := by
  induction l with
  | nil => rfl
  | cons a l ih => simp [shown, ih]

theorem rolled_map (l : List C) : Fsm.rolled (l.map (Fsm.Ev.failed (D := D))) = 0 := by
  induction l with
  | nil => rfl
  | cons a l ih => simp [Fsm.rolled, ih]

/-- The closures shown with the indexes of a range are all of that range. -/
theorem shown_expect (clog : Nat → Fsm.Entry D) (cl : Nat → Option C) (a b : Nat) :
    shown (Fsm.expect clog cl a b) = (List.range' (a + 1) (b - a)).filterMap cl := by
  unfold Fsm.expect
  generalize List.range' (a + 1) (b - a) = l
  induction l with
  | nil => rfl
  | cons i l ih =>
    rw [List.flatMap_cons, shown_append, ih, List.filterMap_cons]
    cases (clog i).kind with
    | data d => cases cl i <;> rfl
    | conf j => cases j <;> cases cl i <;> rfl
    | noop => cases cl i <;> rfl

theorem mem_told {x : List (Fsm.Ev D C)} {e : Fsm.Ev D C} (h : e ∈ x) (hn : ∀ n, e ≠ .rollback n) : e ∈ Fsm.told x := by
  induction x with
  | nil => cases h
  | cons a x ih =>
    rcases List.mem_cons.mp h with h1 | h1
    · subst h1
      cases e with
      | rollback n => exact absurd rfl (hn n)
      | _ => simp [Fsm.told]
    · have := ih h1
      cases a <;> simp [Fsm.told, this]

theorem apply_mem_expect {clog : Nat → Fsm.Entry D} {cl : Nat → Option C} {a b i : Nat} {d : D} {c : Option C}
    (h : Fsm.Ev.apply i d c ∈ Fsm.expect clog cl a b) : a < i ∧ i ≤ b ∧ (clog i).kind = .data d ∧ c = cl i := by
  unfold Fsm.expect at h
  obtain ⟨j, hj, h⟩ := List.mem_flatMap.mp h
  have := List.mem_range'_1.mp hj
  cases hk : (clog j).kind with
  | data d' =>
    rw [hk] at h
    simp only [List.mem_singleton] at h
    cases h
    exact ⟨by omega, by omega, hk, rfl⟩
  | conf jj => rw [hk] at h; cases jj <;> cases hc : cl j <;> simp [hc] at h
  | noop => rw [hk] at h; cases hc : cl j <;> simp [hc] at h

theorem ran_mem_expect {clog : Nat → Fsm.Entry D} {cl : Nat → Option C} {a b : Nat} {c : C}
    (h : Fsm.Ev.ran c ∈ Fsm.expect clog cl a b) : ∃ i, a < i ∧ i ≤ b ∧ (∀ d, (clog i).kind ≠ .data d) ∧ cl i = some c := by
  unfold Fsm.expect at h
  obtain ⟨j, hj, h⟩ := List.mem_flatMap.mp h
  have := List.mem_range'_1.mp hj
  refine ⟨j, by omega, by omega, ?_⟩
  cases hk : (clog j).kind with
  | data d' => rw [hk] at h; simp at h
  | conf jj => rw [hk] at h; cases jj <;> cases hc : cl j <;> simp [hc] at h <;> simp [h]
  | noop => rw [hk] at h; cases hc : cl j <;> simp [hc] at h; simp [h]

/-! ### What is popped -/

theorem taken_self (q : ClosureQueue C) : taken q q = [] := by
  unfold taken; simp [ClosureQueue.numberFrom]

/-- The closure of index `i`, with its index. -/
def withIdx (q : ClosureQueue C) (i : Nat) : Option (Nat × C) := (Fsm.closureAt q i).map fun c => (i, c)

theorem numbered_range (f : Nat) (l : List (Option C)) :
    (ClosureQueue.numberFrom f l).filterMap (fun p => p.2.map fun c => (p.1, c)) =
      (List.range' f l.length).filterMap (fun i => ((l[i - f]?).join).map fun c => (i, c)) := by
  induction l generalizing f with
  | nil => rfl
  | cons a l ih =>
    rw [List.length_cons, List.range'_succ]
    simp only [ClosureQueue.numberFrom, List.filterMap_cons]
    rw [ih (f + 1)]
    have hh : (((a :: l)[f - f]?).join).map (fun c => (f, c)) = a.map (fun c => (f, c)) := by simp
    rw [hh]
    have ht : (List.range' (f + 1) l.length).filterMap (fun i => ((l[i - (f + 1)]?).join).map fun c => (i, c)) =
        (List.range' (f + 1) l.length).filterMap (fun i => (((a :: l)[i - f]?).join).map fun c => (i, c)) := by
      apply Fsm.filterMap_congr'
      intro i hi
      have := List.mem_range'_1.mp hi
      rw [show i - f = (i - (f + 1)) + 1 by omega, List.getElem?_cons_succ]
    rw [ht]

theorem filterMap_none {α β : Type} {f : α → Option β} {l : List α} (h : ∀ x ∈ l, f x = none) : l.filterMap f = [] := by
  induction l with
  | nil => rfl
  | cons a l ih => rw [List.filterMap_cons, h a (by simp), ih (fun x hx => h x (by simp [hx]))]

theorem range_split {a b c : Nat} (h1 : a ≤ b) (h2 : b ≤ c) :
    List.range' (a + 1) (c - a) = List.range' (a + 1) (b - a) ++ List.range' (b + 1) (c - b) := by
  have := List.range'_append (s := a + 1) (m := b - a) (n := c - b) (step := 1)
  rw [show a + 1 + 1 * (b - a) = b + 1 by omega] at this
  rw [this]
  congr 1; omega

theorem closureAt_below {q : ClosureQueue C} {a i : Nat} (h : q.queue ≠ [] → a < q.first) (hi : i ≤ a) :
    Fsm.closureAt q i = none := by
  unfold Fsm.closureAt
  by_cases hq : q.queue = []
  · rw [hq]; simp
  · rw [if_pos (by have := h hq; omega)]

theorem taken_pop {q : ClosureQueue C} {a c : Nat} (h : q.queue ≠ [] → a < q.first) (hac : a ≤ c)
    (hrc : (q.popUntil c).2.rc = 0) :
    taken q (q.popUntil c).1 = (List.range' (a + 1) (c - a)).filterMap (withIdx q) := by
  unfold ClosureQueue.popUntil at hrc ⊢
  by_cases h1 : (q.queue.isEmpty || decide (c < q.first)) = true
  · rw [if_pos h1]
    rw [taken_self]
    symm
    apply filterMap_none
    intro i hi
    have := List.mem_range'_1.mp hi
    unfold withIdx
    rw [show Fsm.closureAt q i = none from ?_]
    · rfl
    simp only [Bool.or_eq_true, List.isEmpty_iff, decide_eq_true_eq] at h1
    unfold Fsm.closureAt
    rcases h1 with h1 | h1
    · rw [h1]; simp
    · rw [if_pos (by omega)]
  · rw [if_neg h1] at hrc ⊢
    by_cases h2 : q.first + q.queue.length ≤ c
    · rw [if_pos h2] at hrc; simp at hrc
    · rw [if_neg h2]
      simp only [Bool.or_eq_true, List.isEmpty_iff, decide_eq_true_eq, not_or] at h1
      have haf := h h1.1
      unfold taken
      dsimp only
      rw [List.length_drop, show q.queue.length - (q.queue.length - (c + 1 - q.first)) = c + 1 - q.first by omega]
      rw [numbered_range, List.length_take, Nat.min_eq_left (by omega)]
      rw [range_split (a := a) (b := q.first - 1) (c := c) (by omega) (by omega)]
      rw [List.filterMap_append, filterMap_none (l := List.range' (a + 1) (q.first - 1 - a)) ?_, List.nil_append]
      · rw [show q.first - 1 + 1 = q.first by omega, show c - (q.first - 1) = c + 1 - q.first by omega]
        apply Fsm.filterMap_congr'
        intro i hi
        have := List.mem_range'_1.mp hi
        unfold withIdx Fsm.closureAt
        rw [if_neg (by omega), List.getElem?_take]
        rw [if_pos (by omega)]
      · intro i hi
        have := List.mem_range'_1.mp hi
        unfold withIdx Fsm.closureAt
        rw [if_pos (by omega)]; rfl

theorem mem_withIdx {q : ClosureQueue C} {l : List Nat} {p : Nat × C} (h : p ∈ l.filterMap (withIdx q)) :
    p.1 ∈ l ∧ Fsm.closureAt q p.1 = some p.2 := by
  obtain ⟨i, hi, hp⟩ := List.mem_filterMap.mp h
  unfold withIdx at hp
  cases hc : Fsm.closureAt q i with
  | none => rw [hc] at hp; cases hp
  | some c => rw [hc] at hp; cases hp; exact ⟨hi, hc⟩

theorem withIdx_snd (q : ClosureQueue C) (l : List Nat) :
    (l.filterMap (withIdx q)).map Prod.snd = l.filterMap (Fsm.closureAt q) := by
  rw [List.map_filterMap]
  apply Fsm.filterMap_congr'
  intro i hi
  unfold withIdx
  cases Fsm.closureAt q i <;> rfl

theorem withIdx_sorted (q : ClosureQueue C) (f n : Nat) :
    ((List.range' f n).filterMap (withIdx q)).Pairwise (fun x y => x.1 < y.1) := by
  induction n generalizing f with
  | zero => simp
  | succ n ih =>
    rw [List.range'_succ, List.filterMap_cons]
    cases hc : withIdx q f with
    | none => exact ih (f + 1)
    | some p =>
      rw [List.pairwise_cons]
      refine ⟨?_, ih (f + 1)⟩
      intro y hy
      have h1 := (mem_withIdx hy).1
      have := List.mem_range'_1.mp h1
      have hp : p.1 = f := by
        unfold withIdx at hc
        cases hh : Fsm.closureAt q f with
        | none => rw [hh] at hc; cases hc
        | some c => rw [hh] at hc; cases hc; rfl
      omega

theorem filter_withIdx (q : ClosureQueue C) (p : Nat → Bool) (l : List Nat) :
    ((l.filterMap (withIdx q)).filter (fun x => p x.1)).map Prod.snd = (l.filter p).filterMap (Fsm.closureAt q) := by
  induction l with
  | nil => rfl
  | cons i l ih =>
    rw [List.filterMap_cons, List.filter_cons]
    unfold withIdx at ih ⊢
    cases hc : Fsm.closureAt q i with
    | none =>
      simp only [Option.map_none]
      rw [ih]
      split
      · rw [List.filterMap_cons, hc]
      · rfl
    | some c =>
      simp only [Option.map_some]
      rw [List.filter_cons]
      by_cases hp : p i = true
      · rw [if_pos hp, if_pos hp, List.filterMap_cons, hc, List.map_cons, ih]
      · rw [if_neg hp, if_neg hp, ih]

theorem filter_range_le (a c m : Nat) (h1 : a ≤ m) (h2 : m ≤ c) :
    (List.range' (a + 1) (c - a)).filter (fun i => decide (i ≤ m)) = List.range' (a + 1) (m - a) := by
  rw [range_split h1 h2, List.filter_append]
  rw [List.filter_eq_self.mpr, List.filter_eq_nil_iff.mpr, List.append_nil]
  · intro i hi
    have := List.mem_range'_1.mp hi
    simp; omega
  · intro i hi
    have := List.mem_range'_1.mp hi
    simp; omega

theorem filter_range_ge (a c k : Nat) (h1 : a < k) (h2 : k ≤ c + 1) :
    (List.range' (a + 1) (c - a)).filter (fun i => decide (k ≤ i)) = List.range' k (c + 1 - k) := by
  rw [range_split (a := a) (b := k - 1) (c := c) (by omega) (by omega), List.filter_append]
  rw [List.filter_eq_nil_iff.mpr, List.filter_eq_self.mpr, List.nil_append]
  · congr 1 <;> omega
  · intro i hi
    have := List.mem_range'_1.mp hi
    simp; omega
  · intro i hi
    have := List.mem_range'_1.mp hi
    simp; omega

/-! ### The invariant -/

/-- The closure `c` belongs to the entry of index `i`. -/
def Matches (s : State P D C) (i : Nat) (c : C) : Prop :=
  1 ≤ i ∧ ∃ e, s.log[i - 1]? = some e ∧
    ((∃ t ∈ s.given, t.done = some c ∧ e.kind = .data t.data ∧ (t.expected = -1 ∨ t.expected = (e.term : Int))) ∨ (c ∈ s.confs ∧ ∃ j, e.kind = .conf j))

structure Inv (s : State P D C) : Prop where
  box : ∃ h, BallotBox.Reach (s.n.bb, h)
  role : s.n.role = .leader → s.n.bb.pending ≠ 0
  nd : s.n.conf.Nodup ∧ s.n.old.Nodup
  li : s.n.lastIndex = s.log.length
  lc : s.n.bb.lastCommitted ≤ s.log.length
  al : s.n.bb.pending ≠ 0 → 1 ≤ s.n.bb.closures.first ∧
    s.log.length + 1 ≤ s.n.bb.closures.first + s.n.bb.closures.queue.length ∧
    (s.n.logErr = false → s.n.bb.closures.first + s.n.bb.closures.queue.length = s.log.length + 1)
  ap : s.n.bb.closures.queue ≠ [] → s.f.applied < s.n.bb.closures.first
  apl : s.f.applied ≤ s.log.length
  pend : ∀ c, s.f.pend = some c → c ≤ s.n.bb.lastCommitted
  mt : ∀ k c, s.n.bb.closures.queue[k]? = some (some c) → s.n.bb.closures.first + k ≤ s.log.length →
    Matches s (s.n.bb.closures.first + k) c
  cons : (dones s.given ++ s.confs).Perm
    (dones s.queued ++ (s.n.bb.closures.queue.filterMap id ++ (s.errs ++ s.popped.map Prod.snd)))
  qg : ∀ t ∈ s.queued, t ∈ s.given
  ord : s.popped.Pairwise (fun x y => x.1 < y.1)
  pb : ∀ p ∈ s.popped, p.1 ≤ s.n.bb.lastCommitted ∧ (s.n.bb.pending ≠ 0 → p.1 < s.n.bb.closures.first)
  pm : ∀ p ∈ s.popped, Matches s p.1 p.2
  out : ∃ k m, k ≤ m + 1 ∧ m + 1 ≤ k + Fsm.rolled s.f.ev ∧
    shown s.f.ev = (s.popped.filter (fun p => decide (p.1 ≤ m))).map Prod.snd ∧
    failed s.f.ev = (s.popped.filter (fun p => decide (k ≤ p.1))).map Prod.snd ∧
    (s.f.err = false → Fsm.rolled s.f.ev = 0 ∧ ∀ p ∈ s.popped, p.1 ≤ m)
  evA : ∀ i d c, Fsm.Ev.apply i d c ∈ s.f.ev → 1 ≤ i ∧ i ≤ s.n.bb.lastCommitted ∧
    (∃ t, s.log[i - 1]? = some ⟨t, .data d⟩) ∧ ∀ x, c = some x → (i, x) ∈ s.popped
  evR : ∀ c, Fsm.Ev.ran c ∈ s.f.ev → ∃ i, (i, c) ∈ s.popped ∧ ∀ t d, s.log[i - 1]? ≠ some ⟨t, .data d⟩

theorem inv_init (conf : List P) (h : conf.Nodup) : Inv (State.init conf : State P D C) where
  box := ⟨{}, .init⟩
  role := by intro h; cases h
  nd := ⟨h, by simp [State.init]⟩
  li := rfl
  lc := Nat.le_refl _
  al := by intro h; exact absurd rfl h
  ap := by intro h; exact absurd rfl h
  apl := Nat.le_refl _
  pend := by intro c h; cases h
  mt := by intro k c h; simp [State.init] at h
  cons := by simp [State.init, dones]
  qg := by intro t ht; cases ht
  ord := by simp [State.init]
  pb := by intro p hp; cases hp
  pm := by intro p hp; cases hp
  out := ⟨1, 0, by omega, by simp [State.init, Fsm.State.init, Fsm.rolled], rfl, rfl, fun _ => ⟨rfl, by simp [State.init]⟩⟩
  evA := by intro i d c h; simp [State.init, Fsm.State.init] at h
  evR := by intro c h; simp [State.init, Fsm.State.init] at h

/-- Matching survives when the entry stays and nothing is forgotten. -/
theorem Matches.mono {s s' : State P D C} {i : Nat} {c : C} (h : Matches s i c)
    (hl : s'.log[i - 1]? = s.log[i - 1]?) (hg : ∀ t ∈ s.given, t ∈ s'.given) (hc : ∀ x ∈ s.confs, x ∈ s'.confs) :
    Matches s' i c := by
  obtain ⟨h0, e, h1, h2⟩ := h
  refine ⟨h0, e, by rw [hl]; exact h1, ?_⟩
  rcases h2 with ⟨t, ht, h3⟩ | ⟨h3, h4⟩
  · exact Or.inl ⟨t, hg t ht, h3⟩
  · exact Or.inr ⟨hc c h3, h4⟩

theorem Matches.le {s : State P D C} {i : Nat} {c : C} (h : Matches s i c) : i ≤ s.log.length := by
  obtain ⟨h0, e, h1, _⟩ := h
  have := (List.getElem?_eq_some_iff.mp h1).1
  omega

/-- Steps of the node alone that leave the ballot box's closures, the log and the state machine's thread. -/
theorem Inv.quiet {s : State P D C} (h : Inv s) {n' : Apply.Node P D C} (hb : ∃ hh, BallotBox.Reach (n'.bb, hh))
    (hcq : n'.bb.closures = s.n.bb.closures) (hp : n'.bb.pending = 0 ↔ s.n.bb.pending = 0)
    (hr : n'.role = .leader → s.n.bb.pending ≠ 0) (hnd : n'.conf.Nodup ∧ n'.old.Nodup)
    (hli : n'.lastIndex = s.n.lastIndex) (hlc : s.n.bb.lastCommitted ≤ n'.bb.lastCommitted)
    (hlc2 : n'.bb.lastCommitted ≤ s.log.length) (he : s.n.logErr = true → n'.logErr = true) :
    Inv { s with n := n' } where
  box := hb
  role := by intro h1 h2; exact hr h1 (hp.mp h2)
  nd := hnd
  li := by show n'.lastIndex = _; rw [hli]; exact h.li
  lc := hlc2
  al := by
    intro h1
    have := h.al (fun h2 => h1 (hp.mpr h2))
    show 1 ≤ n'.bb.closures.first ∧ s.log.length + 1 ≤ n'.bb.closures.first + n'.bb.closures.queue.length ∧
      (n'.logErr = false → n'.bb.closures.first + n'.bb.closures.queue.length = s.log.length + 1)
    rw [hcq]
    refine ⟨this.1, this.2.1, fun h3 => this.2.2 ?_⟩
    cases hh : s.n.logErr with
    | false => rfl
    | true => rw [he hh] at h3; cases h3
  ap := by show n'.bb.closures.queue ≠ [] → _; rw [hcq]; exact h.ap
  apl := h.apl
  pend := fun c hc => Nat.le_trans (h.pend c hc) hlc
  mt := by
    intro k c
    show n'.bb.closures.queue[k]? = _ → n'.bb.closures.first + k ≤ _ → Matches _ (n'.bb.closures.first + k) c
    rw [hcq]
    intro h1 h2
    exact (h.mt k c h1 h2).mono rfl (fun _ h => h) (fun _ h => h)
  cons := by
    show (dones s.given ++ s.confs).Perm
      (dones s.queued ++ (n'.bb.closures.queue.filterMap id ++ (s.errs ++ s.popped.map Prod.snd)))
    rw [hcq]; exact h.cons
  qg := h.qg
  ord := h.ord
  pb := by
    intro p hpp
    obtain ⟨h1, h2⟩ := h.pb p hpp
    refine ⟨Nat.le_trans h1 hlc, fun h3 => ?_⟩
    show p.1 < n'.bb.closures.first
    rw [hcq]
    exact h2 (fun h4 => h3 (hp.mpr h4))
  pm := fun p hpp => (h.pm p hpp).mono rfl (fun _ h => h) (fun _ h => h)
  out := h.out
  evA := by
    intro i d c hm
    obtain ⟨h1, h2, h3⟩ := h.evA i d c hm
    exact ⟨h1, Nat.le_trans h2 hlc, h3⟩
  evR := h.evR

theorem Inv.submit {s : State P D C} (h : Inv s) (t : Task D C) : Inv (submit s t) := by
  unfold Pipe.submit
  have hd : dones (s.given ++ [t]) = dones s.given ++ t.done.toList := by
    unfold dones; rw [List.filterMap_append]
    cases hd : t.done <;> simp [hd]
  have hg : ∀ x ∈ s.given, x ∈ s.given ++ [t] := fun x hx => by simp [hx]
  have hp : (dones (s.given ++ [t]) ++ s.confs).Perm (t.done.toList ++ (dones s.given ++ s.confs)) := by
    rw [hd]
    exact (List.Perm.append_right _ List.perm_append_comm).trans (List.Perm.of_eq (List.append_assoc ..))
  split
  · refine { h with
      qg := fun x hx => hg x (h.qg x hx)
      mt := fun k c h1 h2 => (h.mt k c h1 h2).mono rfl hg (fun _ h => h)
      cons := ?_
      pm := fun p hpp => (h.pm p hpp).mono rfl hg (fun _ h => h) }
    refine (hp.trans (List.Perm.append_left _ h.cons)).trans ?_
    show (t.done.toList ++ _).Perm (dones s.queued ++ (_ ++ (s.errs ++ t.done.toList ++ _)))
    generalize t.done.toList = T
    generalize dones s.queued = A
    generalize List.filterMap id _ = B
    generalize List.map Prod.snd _ = X
    refine (List.perm_append_comm_assoc T A _).trans (List.Perm.append_left A ?_)
    refine (List.perm_append_comm_assoc T B _).trans (List.Perm.append_left B ?_)
    rw [← List.append_assoc]
    exact List.Perm.append_right _ List.perm_append_comm
  · refine { h with
      qg := fun x hx => by
        rcases List.mem_append.mp hx with hx | hx
        · exact hg x (h.qg x hx)
        · exact List.mem_append_right _ hx
      mt := fun k c h1 h2 => (h.mt k c h1 h2).mono rfl hg (fun _ h => h)
      cons := ?_
      pm := fun p hpp => (h.pm p hpp).mono rfl hg (fun _ h => h) }
    refine (hp.trans (List.Perm.append_left _ h.cons)).trans ?_
    have hq : dones (s.queued ++ [t]) = dones s.queued ++ t.done.toList := by
      unfold dones; rw [List.filterMap_append]
      cases hd : t.done <;> simp [hd]
    show (t.done.toList ++ _).Perm (dones (s.queued ++ [t]) ++ _)
    rw [hq, ← List.append_assoc]
    exact List.Perm.append_right _ List.perm_append_comm

theorem Inv.elect {s : State P D C} (h : Inv s) (term : Nat) (h0 : s.n.bb.pending = 0) : Inv (elect s term) := by
  obtain ⟨hh, hr⟩ := h.box
  have hi := BallotBox.reach_inv hr
  obtain ⟨hq, hcq⟩ := hi.follower h0
  dsimp only at hq hcq
  have hst : BallotBox.step (s.n.bb, hh) (.reset (s.log.length + 1)) = some (s.n.bb.resetPendingIndex (s.log.length + 1),
      { hh with base := s.log.length + 1, ents := [], acks := [] }) := by
    simp only [BallotBox.step]
    rw [if_pos ⟨h0, by rw [hq]; rfl, by have := h.lc; omega⟩]
  have hcq2 : (s.n.bb.resetPendingIndex (s.log.length + 1)).closures.queue = [] := hcq
  exact { h with
    box := ⟨_, .step hr hst⟩
    role := fun _ => by show s.log.length + 1 ≠ 0; omega
    al := fun _ => by
      show 1 ≤ s.log.length + 1 ∧ s.log.length + 1 ≤ s.log.length + 1 + (s.n.bb.resetPendingIndex (s.log.length + 1)).closures.queue.length ∧
        (_ → s.log.length + 1 + (s.n.bb.resetPendingIndex (s.log.length + 1)).closures.queue.length = s.log.length + 1)
      rw [hcq2]
      exact ⟨by omega, by simp, fun _ => rfl⟩
    ap := fun hne => absurd hcq2 hne
    mt := fun k c h1 => by
      have h1' : (s.n.bb.resetPendingIndex (s.log.length + 1)).closures.queue[k]? = some (some c) := h1
      rw [hcq2] at h1'; simp at h1'
    cons := by
      have := h.cons
      rw [hcq] at this
      show (dones s.given ++ s.confs).Perm (dones s.queued ++
        ((s.n.bb.resetPendingIndex (s.log.length + 1)).closures.queue.filterMap id ++ (s.errs ++ s.popped.map Prod.snd)))
      rw [hcq2]; exact this
    pb := fun p hp => ⟨(h.pb p hp).1, fun _ => by
      show p.1 < s.log.length + 1
      have := (h.pb p hp).1; have := h.lc; omega⟩
    pm := fun p hp => (h.pm p hp).mono rfl (fun _ h => h) (fun _ h => h) }

/-- A leader appends closures `ds` and (unless the log manager has failed) entries `es`. -/
theorem Inv.appended {s s' : State P D C} (h : Inv s) (hp : s.n.bb.pending ≠ 0) (ds : List (Option C)) (es : List (Fsm.Entry D))
    (hbox : ∃ hh, BallotBox.Reach (s'.n.bb, hh)) (hcq1 : s'.n.bb.closures.first = s.n.bb.closures.first)
    (hcq2 : s'.n.bb.closures.queue = s.n.bb.closures.queue ++ ds) (hpe : s'.n.bb.pending = s.n.bb.pending)
    (hlc : s'.n.bb.lastCommitted = s.n.bb.lastCommitted) (hnd : s'.n.conf = s.n.conf ∧ s'.n.old = s.n.old)
    (hli : s'.n.lastIndex = s'.log.length) (hlog : s'.log = s.log ++ es) (hle : s'.n.logErr = s.n.logErr)
    (hes1 : s.n.logErr = true → es = []) (hes2 : s.n.logErr = false → es.length = ds.length)
    (hf : s'.f = s.f) (hpop : s'.popped = s.popped) (hg : ∀ t ∈ s.given, t ∈ s'.given) (hc : ∀ x ∈ s.confs, x ∈ s'.confs)
    (hm : ∀ k c, ds[k]? = some (some c) → k < es.length → Matches s' (s.log.length + 1 + k) c)
    (hcons : (dones s'.given ++ s'.confs).Perm
      (dones s'.queued ++ (s'.n.bb.closures.queue.filterMap id ++ (s'.errs ++ s'.popped.map Prod.snd))))
    (hqg : ∀ t ∈ s'.queued, t ∈ s'.given) : Inv s' := by
  obtain ⟨a1, a2, a3⟩ := h.al hp
  have hlen : s.log.length ≤ s'.log.length := by rw [hlog]; simp
  have hget : ∀ i, 1 ≤ i → i ≤ s.log.length → s'.log[i - 1]? = s.log[i - 1]? := by
    intro i h1 h2
    rw [hlog, List.getElem?_append_left (by omega)]
  exact {
    box := hbox
    role := fun _ => by rw [hpe]; exact hp
    nd := by rw [hnd.1, hnd.2]; exact h.nd
    li := hli
    lc := by rw [hlc]; exact Nat.le_trans h.lc hlen
    al := by
      intro _
      rw [hcq1, hcq2, hlog, hle]
      simp only [List.length_append]
      cases he : s.n.logErr with
      | true => rw [hes1 he]; exact ⟨a1, by simp; omega, fun h => by cases h⟩
      | false => have := hes2 he; have := a3 he; exact ⟨a1, by omega, fun _ => by omega⟩
    ap := by
      intro _
      rw [hcq1, hf]
      by_cases hq : s.n.bb.closures.queue = []
      · rw [hq] at a2
        have := h.apl
        simp at a2
        omega
      · exact h.ap hq
    apl := by rw [hf]; exact Nat.le_trans h.apl hlen
    pend := by rw [hf, hlc]; exact h.pend
    mt := by
      intro k c h1 h2
      rw [hcq2] at h1
      rw [hcq1] at h2 ⊢
      by_cases hk : k < s.n.bb.closures.queue.length
      · rw [List.getElem?_append_left hk] at h1
        by_cases hl : s.n.bb.closures.first + k ≤ s.log.length
        · exact (h.mt k c h1 hl).mono (hget _ (by omega) hl) hg hc
        · exfalso
          rw [hlog, List.length_append] at h2
          cases he : s.n.logErr with
          | true => rw [hes1 he] at h2; simp at h2; omega
          | false => have := a3 he; omega
      · rw [List.getElem?_append_right (by omega)] at h1
        rw [hlog, List.length_append] at h2
        cases he : s.n.logErr with
        | true => rw [hes1 he] at h2; simp at h2; omega
        | false =>
          have := a3 he
          have hh := hm (k - s.n.bb.closures.queue.length) c h1 (by omega)
          rw [show s.log.length + 1 + (k - s.n.bb.closures.queue.length) = s.n.bb.closures.first + k by omega] at hh
          exact hh
    cons := hcons
    qg := hqg
    ord := by rw [hpop]; exact h.ord
    pb := by
      rw [hpop, hlc, hpe, hcq1]; exact h.pb
    pm := by
      rw [hpop]
      intro p hpp
      have := (h.pm p hpp)
      exact this.mono (hget _ this.1 this.le) hg hc
    out := by rw [hpop, hf]; exact h.out
    evA := by
      rw [hf, hlc, hpop]
      intro i d c hmm
      obtain ⟨h1, h2, h3, h4⟩ := h.evA i d c hmm
      exact ⟨h1, h2, by rw [hget i h1 (Nat.le_trans h2 h.lc)]; exact h3, h4⟩
    evR := by
      rw [hf, hpop]
      intro c hmm
      obtain ⟨i, h1, h2⟩ := h.evR c hmm
      have := h.pm _ h1
      exact ⟨i, h1, by rw [hget i this.1 this.le]; exact h2⟩ }

theorem Inv.confEntry {s : State P D C} (h : Inv s) (c : C) (conf : List P) (old : Option (List P))
    (hp : s.n.bb.pending ≠ 0) (h1 : conf.Nodup) (h2 : ∀ o ∈ old, o.Nodup) : Inv (confEntry s c conf old) := by
  obtain ⟨hh, hr⟩ := h.box
  have hst : BallotBox.step (s.n.bb, hh) (.append conf old (some c)) = some (s.n.bb.appendPendingTask conf old (some c),
      { hh with ents := hh.ents ++ [(conf, old)] }) := by
    simp only [BallotBox.step]
    rw [if_pos ⟨by omega, h1, h2⟩]
  have hbox : ∃ hh, BallotBox.Reach (s.n.bb.appendPendingTask conf old (some c), hh) := ⟨_, .step hr hst⟩
  have hcons : (dones s.given ++ (s.confs ++ [c])).Perm
      (dones s.queued ++ ((s.n.bb.appendPendingTask conf old (some c)).closures.queue.filterMap id ++ (s.errs ++ s.popped.map Prod.snd))) := by
    have e1 : (s.n.bb.appendPendingTask conf old (some c)).closures.queue.filterMap id = s.n.bb.closures.queue.filterMap id ++ [c] := by
      simp [BallotBox.appendPendingTask, ClosureQueue.append]
    rw [e1, ← List.append_assoc]
    refine (List.Perm.append_right [c] h.cons).trans ?_
    simp only [List.append_assoc]
    refine List.Perm.append_left _ (List.Perm.append_left _ ?_)
    rw [← List.append_assoc]
    exact List.perm_append_comm
  unfold Pipe.confEntry
  dsimp only
  cases he : s.n.logErr with
  | true =>
    rw [if_pos rfl]
    exact h.appended hp [some c] [] hbox rfl rfl rfl rfl ⟨rfl, rfl⟩ h.li (by simp) he.symm (fun _ => rfl)
      (fun h' => by rw [he] at h'; cases h') rfl rfl (fun _ h => h) (fun x hx => by simp [hx])
      (fun k c _ hk => by simp at hk) hcons h.qg
  | false =>
    rw [if_neg (by simp)]
    refine h.appended hp [some c] [⟨s.n.term, .conf old.isSome⟩] hbox rfl rfl rfl rfl ⟨rfl, rfl⟩ ?_ rfl he.symm
      (fun h' => by rw [he] at h'; cases h') (fun _ => rfl) rfl rfl (fun _ h => h) (fun x hx => by simp [hx]) ?_ hcons h.qg
    · show s.n.lastIndex + 1 = (s.log ++ [_]).length
      rw [h.li]; simp
    · intro k c' hk hk2
      have hk0 : k = 0 := by simp at hk2; exact hk2
      subst hk0
      have hcc : c' = c := by simp at hk; exact hk.symm
      subst hcc
      refine ⟨by omega, ⟨s.n.term, .conf old.isSome⟩, ?_, Or.inr ⟨by simp, _, rfl⟩⟩
      show (s.log ++ [_])[s.log.length + 1 + 0 - 1]? = _
      rw [List.getElem?_append_right (by omega)]
      simp

/-- The ballot box after a batch. -/
theorem fold_reach {conf : List P} {old : Option (List P)} (h1 : conf.Nodup) (h2 : ∀ o ∈ old, o.Nodup) (ds : List (Option C))
    {bb : BallotBox P C} (hb : ∃ hh, BallotBox.Reach (bb, hh)) (hp : bb.pending ≠ 0) :
    (∃ hh, BallotBox.Reach (ds.foldl (fun b d => b.appendPendingTask conf old d) bb, hh)) ∧
    (ds.foldl (fun b d => b.appendPendingTask conf old d) bb).lastCommitted = bb.lastCommitted := by
  induction ds generalizing bb with
  | nil => exact ⟨hb, rfl⟩
  | cons d ds ih =>
    rw [List.foldl_cons]
    obtain ⟨hh, hr⟩ := hb
    have hst : BallotBox.step (bb, hh) (.append conf old d) = some (bb.appendPendingTask conf old d,
        { hh with ents := hh.ents ++ [(conf, old)] }) := by
      simp only [BallotBox.step]
      rw [if_pos ⟨by omega, h1, h2⟩]
    exact ih (bb := bb.appendPendingTask conf old d) ⟨_, .step hr hst⟩ hp

theorem batch_perm (acc : Task D C → Bool) (ts : List (Task D C)) :
    (dones ts).Perm (((ts.filter acc).map (·.done)).filterMap id ++
      ((ts.filter (fun t => !acc t)).filterMap (fun t => t.done.map (fun c => (c, Apply.Err.eperm)))).map Prod.fst) := by
  induction ts with
  | nil => exact List.Perm.refl _
  | cons t ts ih =>
    unfold dones at ih ⊢
    rw [List.filterMap_cons, List.filter_cons, List.filter_cons]
    cases ha : acc t <;> cases hd : t.done with
    | none => simpa [hd] using ih
    | some c =>
      simp only [hd, Bool.not_false, Bool.not_true, if_true, if_false, Bool.false_eq_true, List.filterMap_cons, Option.map_some,
        List.map_cons, id]
      first
        | exact List.Perm.cons _ ih
        | exact (List.Perm.cons _ ih).trans List.perm_middle.symm

theorem Inv.batch {s : State P D C} (h : Inv s) (k : Nat) : Inv (batch s k) := by
  have hd : dones s.queued = dones (s.queued.take k) ++ dones (s.queued.drop k) := by
    unfold dones; rw [← List.filterMap_append, List.take_append_drop]
  obtain ⟨sp1, sp2⟩ := Apply.applyBatch_spec s.n (s.queued.take k)
  by_cases hacc : s.n.role = .leader ∧ (s.n.nodeRo || s.n.majRo) = false
  · -- accepted
    obtain ⟨b1, b2, b3, b4, b5, b6⟩ := sp2 hacc
    have hp := h.role hacc.1
    have hbb : (Apply.applyBatch s.n (s.queued.take k)).1.bb =
        (((s.queued.take k).filter (Apply.Accepts s.n.term)).map (·.done)).foldl
          (fun b d => b.appendPendingTask s.n.conf (if s.n.old.isEmpty then none else some s.n.old) d) s.n.bb ∧
        (Apply.applyBatch s.n (s.queued.take k)).1.conf = s.n.conf ∧ (Apply.applyBatch s.n (s.queued.take k)).1.old = s.n.old ∧
        (Apply.applyBatch s.n (s.queued.take k)).1.logErr = s.n.logErr ∧
        (s.n.logErr = true → (Apply.applyBatch s.n (s.queued.take k)).1.log = s.n.log ∧
          (Apply.applyBatch s.n (s.queued.take k)).1.lastIndex = s.n.lastIndex) := by
      have l3 := (Apply.loop_spec s.n.term s.n.conf s.n.old (s.queued.take k) s.n.bb).2.2
      rw [← l3]
      unfold Apply.applyBatch
      dsimp only
      rw [if_neg (by simp [hacc.1]; simpa using hacc.2)]
      split
      · rename_i he; exact ⟨rfl, rfl, rfl, rfl, fun _ => ⟨rfl, rfl⟩⟩
      · rename_i he; exact ⟨rfl, rfl, rfl, rfl, fun h' => absurd h' he⟩
    obtain ⟨hbb, hn1, hn2, hn3, hn4⟩ := hbb
    have hold : ∀ o ∈ (if s.n.old.isEmpty then none else some s.n.old), o.Nodup := by
      intro o ho
      split at ho
      · cases ho
      · cases ho; exact h.nd.2
    obtain ⟨hre, hlc⟩ := fold_reach h.nd.1 hold (((s.queued.take k).filter (Apply.Accepts s.n.term)).map (·.done)) h.box hp
    rw [← hbb] at hre hlc
    have hperm := batch_perm (Apply.Accepts s.n.term) (s.queued.take k)
    have hb1' : (Apply.applyBatch s.n (s.queued.take k)).2.map Prod.fst = (((s.queued.take k).filter
        (fun t => !Apply.Accepts s.n.term t)).filterMap (fun t => t.done.map (fun c => (c, Apply.Err.eperm)))).map Prod.fst := by
      rw [b1]
    rw [← hb1'] at hperm
    have hcons : (dones s.given ++ s.confs).Perm (dones (s.queued.drop k) ++
        ((Apply.applyBatch s.n (s.queued.take k)).1.bb.closures.queue.filterMap id ++
          (s.errs ++ (Apply.applyBatch s.n (s.queued.take k)).2.map Prod.fst ++ s.popped.map Prod.snd))) := by
      refine h.cons.trans ?_
      rw [hd, b2, List.filterMap_append]
      generalize (((s.queued.take k).filter (Apply.Accepts s.n.term)).map (·.done)).filterMap id = X at *
      generalize (Apply.applyBatch s.n (s.queued.take k)).2.map Prod.fst = Y at *
      generalize dones (s.queued.take k) = T at *
      generalize dones (s.queued.drop k) = U at *
      generalize List.filterMap id s.n.bb.closures.queue = B
      generalize List.map Prod.snd s.popped = Z
      refine ((List.Perm.append_right U hperm).append_right _).trans ?_
      simp only [List.append_assoc]
      -- X Y U B E Z ~ U B X E Y Z
      refine (List.Perm.append_left X (List.perm_append_comm_assoc Y U _)).trans ?_
      refine (List.perm_append_comm_assoc X U _).trans (List.Perm.append_left U ?_)
      refine (List.Perm.append_left X (List.perm_append_comm_assoc Y B _)).trans ?_
      refine (List.perm_append_comm_assoc X B _).trans (List.Perm.append_left B ?_)
      refine List.Perm.append_left X ?_
      exact List.perm_append_comm_assoc Y _ _
    unfold Pipe.batch
    dsimp only
    have hdata : ∀ (es : List D) (j : Nat) (hj : j < es.length) (L : Nat) (T : Nat),
        ((Apply.assign L T es).map dataEntry)[j]? = some ⟨T, .data es[j]⟩ := by
      intro es j hj L T
      rw [List.getElem?_map, Apply.assign_get L T es j hj]; rfl
    cases he : s.n.logErr with
    | true =>
      obtain ⟨g1, g2⟩ := hn4 he
      refine h.appended hp (((s.queued.take k).filter (Apply.Accepts s.n.term)).map (·.done)) [] hre b3 b2 b4 hlc ⟨hn1, hn2⟩
        ?_ ?_ hn3 (fun _ => rfl) (fun h' => by rw [he] at h'; cases h') rfl rfl (fun _ h => h) (fun _ h => h)
        (fun j c _ hj => by simp at hj) hcons (fun t ht => h.qg t (List.mem_of_mem_drop ht))
      · show (Apply.applyBatch s.n (s.queued.take k)).1.lastIndex = (s.log ++ _).length
        rw [g1, g2, h.li]; simp
      · show s.log ++ _ = s.log ++ []
        rw [g1]; simp
    | false =>
      obtain ⟨g1, g2⟩ := b6 he
      have hes : (((Apply.applyBatch s.n (s.queued.take k)).1.log.drop s.n.log.length).map dataEntry) =
          (Apply.assign s.n.lastIndex s.n.term (((s.queued.take k).filter (Apply.Accepts s.n.term)).map (·.data))).map dataEntry := by
        rw [g1]; simp
      refine h.appended hp (((s.queued.take k).filter (Apply.Accepts s.n.term)).map (·.done))
        ((Apply.assign s.n.lastIndex s.n.term (((s.queued.take k).filter (Apply.Accepts s.n.term)).map (·.data))).map dataEntry)
        hre b3 b2 b4 hlc ⟨hn1, hn2⟩
        ?_ ?_ hn3 (fun h' => by rw [he] at h'; cases h') (fun _ => by simp [Apply.assign_length]) rfl rfl (fun _ h => h)
        (fun _ h => h) ?_ hcons (fun t ht => h.qg t (List.mem_of_mem_drop ht))
      · show (Apply.applyBatch s.n (s.queued.take k)).1.lastIndex = (s.log ++ _).length
        rw [hes, g2, h.li]; simp [Apply.assign_length]
      · show s.log ++ _ = s.log ++ _
        rw [hes]
      · intro j c hj hj2
        have hlen : j < ((s.queued.take k).filter (Apply.Accepts s.n.term)).length := by
          simpa [Apply.assign_length] using hj2
        refine ⟨by omega, ⟨s.n.term, .data ((((s.queued.take k).filter (Apply.Accepts s.n.term))[j]).data)⟩, ?_, Or.inl
          ⟨((s.queued.take k).filter (Apply.Accepts s.n.term))[j], ?_, ?_, rfl, ?_⟩⟩
        · show (s.log ++ (((Apply.applyBatch s.n (s.queued.take k)).1.log.drop s.n.log.length).map dataEntry))[_]? = _
          rw [hes, List.getElem?_append_right (by omega), show s.log.length + 1 + j - 1 - s.log.length = j by omega]
          rw [hdata _ j (by simpa using hlen)]
          simp
        · exact h.qg _ (List.mem_of_mem_take (List.mem_filter.mp (List.getElem_mem hlen)).1)
        · rw [List.getElem?_map, List.getElem?_eq_getElem hlen] at hj
          simpa using hj
        · simpa [Apply.Accepts] using (List.mem_filter.mp (List.getElem_mem hlen)).2
  · -- refused
    have hrej : s.n.role ≠ .leader ∨ (s.n.nodeRo || s.n.majRo) = true ∧ True := by
      by_cases hr : s.n.role = .leader
      · refine Or.inr ⟨?_, trivial⟩
        cases hx : (s.n.nodeRo || s.n.majRo) with
        | true => rfl
        | false => exact absurd ⟨hr, hx⟩ hacc
      · exact Or.inl hr
    obtain ⟨r1, e, r2⟩ := sp1 hrej
    have hmap : (Apply.applyBatch s.n (s.queued.take k)).2.map Prod.fst = dones (s.queued.take k) := by
      rw [r2, List.map_filterMap]
      unfold dones
      apply Fsm.filterMap_congr'
      intro t _
      cases t.done <;> rfl
    have hst : Pipe.batch s k = { s with queued := s.queued.drop k, errs := s.errs ++ dones (s.queued.take k) } := by
      unfold Pipe.batch
      dsimp only
      rw [hmap, r1]
      simp
    rw [hst]
    refine { h with
      qg := fun t ht => h.qg t (List.mem_of_mem_drop ht)
      mt := fun k c h1 h2 => (h.mt k c h1 h2).mono rfl (fun _ h => h) (fun _ h => h)
      cons := ?_
      pm := fun p hp => (h.pm p hp).mono rfl (fun _ h => h) (fun _ h => h) }
    refine h.cons.trans ?_
    rw [hd]
    show (_ : List C).Perm (dones (s.queued.drop k) ++ (_ ++ (s.errs ++ dones (s.queued.take k) ++ _)))
    generalize dones (s.queued.take k) = T
    generalize dones (s.queued.drop k) = U
    simp only [List.append_assoc]
    refine (List.perm_append_comm_assoc T U _).trans (List.Perm.append_left U ?_)
    refine (List.perm_append_comm_assoc T _ _).trans (List.Perm.append_left _ ?_)
    exact List.perm_append_comm_assoc T _ _

theorem Inv.stepDown {s : State P D C} (h : Inv s) : Inv (stepDown s) := by
  obtain ⟨hh, hr⟩ := h.box
  exact { h with
    box := ⟨hh, .step hr (op := .clear) rfl⟩
    role := fun h' => by cases h'
    al := fun h' => absurd rfl h'
    ap := fun h' => absurd rfl h'
    mt := fun k c h' => by simp [Pipe.stepDown, BallotBox.clearPendingTasks, ClosureQueue.clear] at h'
    cons := by
      refine h.cons.trans ?_
      show (_ : List C).Perm (dones s.queued ++ ([] ++ (s.errs ++ s.n.bb.closures.queue.filterMap id ++ s.popped.map Prod.snd)))
      refine List.Perm.append_left _ ?_
      rw [List.nil_append, List.append_assoc]
      exact List.perm_append_comm_assoc _ _ _
    pb := fun p hp => ⟨(h.pb p hp).1, fun h' => absurd rfl h'⟩
    pm := fun p hp => (h.pm p hp).mono rfl (fun _ h => h) (fun _ h => h) }

theorem commitAt_facts {bb : BallotBox P C} {hh : BallotBox.Hist P} (hr : BallotBox.Reach (bb, hh)) (first last : Nat) (peer : P) :
    (bb.commitAt first last peer).1.closures = bb.closures ∧
    ((bb.commitAt first last peer).1.pending = 0 ↔ bb.pending = 0) ∧
    bb.lastCommitted ≤ (bb.commitAt first last peer).1.lastCommitted ∧
    ((bb.commitAt first last peer).1.lastCommitted = bb.lastCommitted ∨
      ((bb.commitAt first last peer).1.lastCommitted ≤ last ∧ bb.pending ≠ 0 ∧ last < bb.pending + bb.queue.length)) := by
  have hi := BallotBox.reach_inv hr
  unfold BallotBox.commitAt
  split
  · exact ⟨rfl, Iff.rfl, Nat.le_refl _, Or.inl rfl⟩
  · rename_i hp
    split
    · exact ⟨rfl, Iff.rfl, Nat.le_refl _, Or.inl rfl⟩
    · split
      · exact ⟨rfl, Iff.rfl, Nat.le_refl _, Or.inl rfl⟩
      · have hlc := BallotBox.grantRange_lc (max bb.pending first) last peer bb.pending bb.queue {} 0
        dsimp only at hlc ⊢
        generalize BallotBox.grantRange (max bb.pending first) last peer bb.pending bb.queue {} 0 = r at *
        obtain ⟨q, lc⟩ := r
        dsimp only at hlc ⊢
        split
        · exact ⟨rfl, Iff.rfl, Nat.le_refl _, Or.inl rfl⟩
        · rename_i hz
          rcases hlc with ⟨h1, _⟩ | ⟨k, hk, h1, h2, h3, _⟩
          · exact absurd h1 hz
          · have := hi.lcLt hp
            dsimp only at this
            refine ⟨rfl, ⟨fun h => ?_, fun h => absurd h hp⟩, ?_, Or.inr ⟨?_, hp, by omega⟩⟩
            · have h' : lc + 1 = 0 := h
              omega
            · show bb.lastCommitted ≤ lc
              omega
            · show lc ≤ last
              omega

theorem Inv.ack {s : State P D C} (h : Inv s) (first last : Nat) (peer : P)
    (hl : s.n.logErr = true → last ≤ s.log.length) :
    Inv { s with n := { s.n with bb := (s.n.bb.commitAt first last peer).1 } } := by
  obtain ⟨hh, hr⟩ := h.box
  obtain ⟨f1, f2, f3, f4⟩ := commitAt_facts hr first last peer
  refine h.quiet ?_ f1 f2 h.role h.nd rfl f3 ?_ (fun h => h)
  · have : ∃ h', BallotBox.step (s.n.bb, hh) (.commit first last peer) = some ((s.n.bb.commitAt first last peer).1, h') := by
      simp only [BallotBox.step]
      generalize s.n.bb.commitAt first last peer = r
      obtain ⟨b, rc, ns⟩ := r
      cases rc <;> exact ⟨_, rfl⟩
    obtain ⟨h', hst⟩ := this
    exact ⟨h', .step hr hst⟩
  · show (s.n.bb.commitAt first last peer).1.lastCommitted ≤ _
    have hlc := h.lc
    rcases f4 with f4 | ⟨f4, hp, f5⟩
    · omega
    · cases hle : s.n.logErr with
      | true => have := hl hle; omega
      | false =>
        have h1 := (h.al hp).2.2 hle
        have h2 := ((BallotBox.reach_inv hr).cq hp).2
        dsimp only at h2
        omega

theorem Inv.setCommitted {s : State P D C} (h : Inv s) (i : Nat) (hl : s.n.bb.pending = 0 → i ≤ s.log.length) :
    Inv { s with n := { s.n with bb := (s.n.bb.setLastCommittedIndex i).1 } } := by
  obtain ⟨hh, hr⟩ := h.box
  have hf : (s.n.bb.setLastCommittedIndex i).1.closures = s.n.bb.closures ∧
      (s.n.bb.setLastCommittedIndex i).1.pending = s.n.bb.pending ∧
      s.n.bb.lastCommitted ≤ (s.n.bb.setLastCommittedIndex i).1.lastCommitted ∧
      ((s.n.bb.setLastCommittedIndex i).1.lastCommitted = s.n.bb.lastCommitted ∨
        ((s.n.bb.setLastCommittedIndex i).1.lastCommitted = i ∧ s.n.bb.pending = 0)) := by
    unfold BallotBox.setLastCommittedIndex
    split
    · exact ⟨rfl, rfl, Nat.le_refl _, Or.inl rfl⟩
    · rename_i h0
      split
      · exact ⟨rfl, rfl, Nat.le_refl _, Or.inl rfl⟩
      · split
        · refine ⟨rfl, rfl, by dsimp only; omega, Or.inr ⟨rfl, ?_⟩⟩
          exact Decidable.byContradiction fun hn => h0 (Or.inl hn)
        · exact ⟨rfl, rfl, Nat.le_refl _, Or.inl rfl⟩
  obtain ⟨f1, f2, f3, f4⟩ := hf
  refine h.quiet ?_ f1 (by show _ ↔ _; rw [show ({ s.n with bb := (s.n.bb.setLastCommittedIndex i).1 } : Apply.Node P D C).bb.pending =
    s.n.bb.pending from f2]) h.role h.nd rfl f3 ?_ (fun h => h)
  · exact ⟨_, .step hr (op := .setCommitted i) rfl⟩
  · show (s.n.bb.setLastCommittedIndex i).1.lastCommitted ≤ _
    have := h.lc
    rcases f4 with f4 | ⟨f4, h0⟩
    · omega
    · have := hl h0; omega

theorem Inv.follow {s : State P D C} (h : Inv s) (log : List (Fsm.Entry D)) (h0 : s.n.bb.pending = 0)
    (h1 : s.n.bb.lastCommitted ≤ log.length) (h2 : s.f.applied ≤ log.length)
    (h3 : log.take s.n.bb.lastCommitted = s.log.take s.n.bb.lastCommitted) :
    Inv { s with log := log, n := { s.n with lastIndex := log.length } } := by
  obtain ⟨hh, hr⟩ := h.box
  have hcq := ((BallotBox.reach_inv hr).follower h0).2
  dsimp only at hcq
  have hget : ∀ i, 1 ≤ i → i ≤ s.n.bb.lastCommitted → log[i - 1]? = s.log[i - 1]? := by
    intro i hi1 hi2
    rw [← List.getElem?_take_of_lt (show i - 1 < s.n.bb.lastCommitted by omega), h3,
      List.getElem?_take_of_lt (by omega)]
  exact {
    box := h.box
    role := h.role
    nd := h.nd
    li := rfl
    lc := h1
    al := fun h' => absurd h0 h'
    ap := fun h' => absurd hcq h'
    apl := h2
    pend := h.pend
    mt := fun k c h' => by
      have h'' : s.n.bb.closures.queue[k]? = some (some c) := h'
      rw [hcq] at h''; simp at h''
    cons := h.cons
    qg := h.qg
    ord := h.ord
    pb := h.pb
    pm := fun p hp => by
      have := h.pm p hp
      exact this.mono (hget _ this.1 (h.pb p hp).1) (fun _ h => h) (fun _ h => h)
    out := h.out
    evA := by
      intro i d c hm
      obtain ⟨a1, a2, a3, a4⟩ := h.evA i d c hm
      exact ⟨a1, a2, by show ∃ t, log[i - 1]? = _; rw [hget i a1 a2]; exact a3, a4⟩
    evR := by
      intro c hm
      obtain ⟨i, a1, a2⟩ := h.evR c hm
      exact ⟨i, a1, by show ∀ t d, log[i - 1]? ≠ _; rw [hget i (h.pm _ a1).1 (h.pb _ a1).1]; exact a2⟩ }

/-! ### The state machine's thread -/

/-- Events that show and fail nothing. -/
def silent (x : List (Fsm.Ev D C)) : Prop :=
  ∀ e ∈ x, (∀ i d c, e ≠ .apply i d c) ∧ (∀ c, e ≠ .ran c) ∧ (∀ c, e ≠ .failed c) ∧ ∀ n, e ≠ .rollback n

theorem silent_facts {x : List (Fsm.Ev D C)} (h : silent x) : shown x = [] ∧ failed x = [] ∧ Fsm.rolled x = 0 := by
  induction x with
  | nil => exact ⟨rfl, rfl, rfl⟩
  | cons e x ih =>
    obtain ⟨h1, h2, h3⟩ := ih (fun e he => h e (by simp [he]))
    obtain ⟨a1, a2, a3, a4⟩ := h e (by simp)
    cases e with
    | apply i d c => exact absurd rfl (a1 i d c)
    | ran c => exact absurd rfl (a2 c)
    | failed c => exact absurd rfl (a3 c)
    | rollback n => exact absurd rfl (a4 n)
    | _ => exact ⟨h1, h2, h3⟩

theorem Inv.setF {s : State P D C} (h : Inv s) {g : Fsm.State D C} {x : List (Fsm.Ev D C)} (hev : g.ev = s.f.ev ++ x)
    (hx : silent x) (he : g.err = false → s.f.err = false) (hp : ∀ c, g.pend = some c → c ≤ s.n.bb.lastCommitted)
    (ha : s.n.bb.closures.queue ≠ [] → g.applied < s.n.bb.closures.first) (hal : g.applied ≤ s.log.length) :
    Inv { s with f := g } := by
  obtain ⟨e1, e2, e3⟩ := silent_facts hx
  exact { h with
    ap := ha
    apl := hal
    pend := hp
    mt := fun k c h1 h2 => (h.mt k c h1 h2).mono rfl (fun _ h => h) (fun _ h => h)
    pm := fun p hp => (h.pm p hp).mono rfl (fun _ h => h) (fun _ h => h)
    out := by
      obtain ⟨k, m, o1, o2, o3, o4, o5⟩ := h.out
      refine ⟨k, m, o1, ?_, ?_, ?_, ?_⟩
      · show _ ≤ k + Fsm.rolled g.ev
        rw [hev, Fsm.rolled_append, e3]; exact o2
      · show shown g.ev = _
        rw [hev, shown_append, e1, List.append_nil]; exact o3
      · show failed g.ev = _
        rw [hev, failed_append, e2, List.append_nil]; exact o4
      · intro h'
        show Fsm.rolled g.ev = 0 ∧ _
        rw [hev, Fsm.rolled_append, e3]; exact o5 (he h')
    evA := by
      intro i d c hm
      have hm' : Fsm.Ev.apply i d c ∈ g.ev := hm
      rw [hev] at hm'
      rcases List.mem_append.mp hm' with hm' | hm'
      · exact h.evA i d c hm'
      · exact absurd rfl ((hx _ hm').1 i d c)
    evR := by
      intro c hm
      have hm' : Fsm.Ev.ran c ∈ g.ev := hm
      rw [hev] at hm'
      rcases List.mem_append.mp hm' with hm' | hm'
      · exact h.evR c hm'
      · exact absurd rfl ((hx _ hm').2.1 c) }

theorem putFsm_same {s : State P D C} {g : Fsm.State D C} (h : g.cq = s.n.bb.closures) : putFsm s g = { s with f := g } := by
  unfold putFsm
  rw [h, taken_self, List.append_nil]

theorem putFsm_after {s : State P D C} {g g' : Fsm.State D C} (h : g'.cq = g.cq) : putFsm s g' = { putFsm s g with f := g' } := by
  unfold putFsm
  rw [h]

theorem reads_env {s : State P D C} (h : Inv s) {e : Fsm.Env D} (hr : Reads s e) {c : Nat} (hc : c ≤ s.n.bb.lastCommitted) :
    Fsm.EnvOk (entryAt s.log) e s.n.bb.closures c := by
  have hlc := h.lc
  obtain ⟨hh, hre⟩ := h.box
  have hinv := BallotBox.reach_inv hre
  refine ⟨?_, fun i h1 h2 => (hr i h1 (by omega)).2, ?_⟩
  · intro i h1 h2
    rcases (hr i h1 (by omega)).1 with h3 | h3
    · left
      rw [h3, List.getElem?_eq_getElem (by omega)]
      unfold entryAt
      rw [List.getElem?_eq_getElem (by omega)]
      rfl
    · exact Or.inr h3
  · unfold ClosureQueue.popUntil
    split
    · rfl
    · rename_i hne
      simp only [Bool.or_eq_true, decide_eq_true_eq, not_or] at hne
      by_cases hp : s.n.bb.pending = 0
      · have := (hinv.follower hp).2
        simp only at this
        simp [this] at hne
      · have h1 := hinv.cq hp
        have h2 := hinv.lcLt hp
        simp only at h1 h2
        rw [if_neg (by omega)]

theorem entryAt_some {log : List (Fsm.Entry D)} {i : Nat} (h1 : 1 ≤ i) (h2 : i ≤ log.length) :
    log[i - 1]? = some (entryAt log i) := by
  unfold entryAt
  rw [List.getElem?_eq_getElem (by omega)]; rfl

theorem popUntil_queue {q : ClosureQueue C} {c : Nat} (h : (q.popUntil c).2.rc = 0) :
    ((q.popUntil c).1 = q ∧ (q.queue = [] ∨ c < q.first)) ∨
    (q.first ≤ c ∧ c < q.first + q.queue.length ∧
      (q.popUntil c).1 = { first := c + 1, queue := q.queue.drop (c + 1 - q.first) } ∧ q.queue ≠ []) := by
  unfold ClosureQueue.popUntil at h ⊢
  split
  · rename_i hne
    simp only [Bool.or_eq_true, List.isEmpty_iff, decide_eq_true_eq] at hne
    exact Or.inl ⟨rfl, hne⟩
  · rename_i hne
    rw [if_neg hne] at h
    simp only [Bool.or_eq_true, List.isEmpty_iff, decide_eq_true_eq, not_or] at hne
    split
    · rename_i h2; rw [if_pos h2] at h; simp at h
    · exact Or.inr ⟨by omega, by omega, rfl, hne.1⟩

theorem numbered_snd (f : Nat) (l : List (Option C)) :
    ((ClosureQueue.numberFrom f l).filterMap (fun p => p.2.map fun c => (p.1, c))).map Prod.snd = l.filterMap id := by
  induction l generalizing f with
  | nil => rfl
  | cons a l ih =>
    simp only [ClosureQueue.numberFrom, List.filterMap_cons]
    cases a with
    | none => exact ih (f + 1)
    | some c => simpa using ih (f + 1)

theorem taken_rest {q : ClosureQueue C} {c : Nat} (h : (q.popUntil c).2.rc = 0) :
    q.queue.filterMap id = (taken q (q.popUntil c).1).map Prod.snd ++ (q.popUntil c).1.queue.filterMap id := by
  rcases popUntil_queue h with ⟨h1, _⟩ | ⟨h1, h2, h3, _⟩
  · rw [h1, taken_self]; rfl
  · rw [h3]
    unfold taken
    rw [numbered_snd]
    dsimp only
    rw [List.length_drop, show q.queue.length - (q.queue.length - (c + 1 - q.first)) = c + 1 - q.first by omega]
    rw [← List.filterMap_append, List.take_append_drop]

/-- One do_committed that does something. -/
theorem Inv.committed {s : State P D C} (h : Inv s) {e : Fsm.Env D} (hr : Reads s e) {c : Nat} (hc : c ≤ s.n.bb.lastCommitted)
    (herr : s.f.err = false) (hlt : s.f.applied < c) : Inv (putFsm s ((fsmOf s).doCommitted e c)) := by
  have hok := reads_env h hr hc
  have hrc := hok.pop
  obtain ⟨hh, hre⟩ := h.box
  have hlc := h.lc
  obtain ⟨evs, m, ⟨h1, h1t⟩, h2, h3, h4, h5, h5p, h5c, h5q, h6⟩ :=
    Fsm.doCommitted_spec (clog := entryAt s.log) (e := e) (s := fsmOf s) (c := c) herr hlt hok
  have hsh : shown evs = (List.range' (s.f.applied + 1) (m - s.f.applied)).filterMap (Fsm.closureAt s.n.bb.closures) := by
    rw [← shown_told, h1t, shown_expect]; rfl
  have hev1 : ∀ x ∈ (((fsmOf s).doCommitted e c)).ev, x ∈ s.f.ev ∨ x ∈ evs ∨ x = .onError ∨ ∃ c, x = .failed c := by
    intro x hx
    rcases h6 with ⟨_, _, e3, _⟩ | ⟨_, e3, _⟩
    · rw [e3] at hx
      rcases List.mem_append.mp hx with hx | hx
      · exact Or.inl hx
      · exact Or.inr (Or.inl hx)
    · rw [e3] at hx
      simp only [List.mem_append, List.mem_singleton, List.mem_map] at hx
      rcases hx with ((hx | hx) | hx) | ⟨y, _, hx⟩
      · exact Or.inl hx
      · exact Or.inr (Or.inl hx)
      · exact Or.inr (Or.inr (Or.inl hx))
      · exact Or.inr (Or.inr (Or.inr ⟨y, hx.symm⟩))
  have hst : ∃ h', BallotBox.Reach ({ s.n.bb with closures := (s.n.bb.closures.popUntil c).1 }, h') := by
    refine ⟨hh, .step hre (op := .pop c) ?_⟩
    simp only [BallotBox.step]
    rw [if_pos hc]
  have hap := h.ap
  have htk := taken_pop (q := s.n.bb.closures) (a := s.f.applied) (c := c) h.ap (by omega) hrc
  have hpn : s.n.bb.closures.queue ≠ [] → s.n.bb.pending ≠ 0 :=
    fun hne h0 => hne ((BallotBox.reach_inv hre).follower h0).2
  -- facts about a closure that is found
  have hat : ∀ i x, Fsm.closureAt s.n.bb.closures i = some x → s.n.bb.closures.first ≤ i ∧
      s.n.bb.closures.queue[i - s.n.bb.closures.first]? = some (some x) ∧ s.n.bb.closures.queue ≠ [] := by
    intro i x hx
    unfold Fsm.closureAt at hx
    split at hx
    · cases hx
    · rename_i hf
      have hj : s.n.bb.closures.queue[i - s.n.bb.closures.first]? = some (some x) := by
        cases hg : s.n.bb.closures.queue[i - s.n.bb.closures.first]? with
        | none => rw [hg] at hx; cases hx
        | some y => rw [hg] at hx; simpa using hx
      refine ⟨by omega, hj, ?_⟩
      intro h0; rw [h0] at hj; simp at hj
  have hnew : ∀ p ∈ taken s.n.bb.closures (s.n.bb.closures.popUntil c).1, s.f.applied < p.1 ∧ p.1 ≤ c ∧
      s.n.bb.closures.first ≤ p.1 ∧ s.n.bb.closures.queue ≠ [] ∧ Matches s p.1 p.2 := by
    intro p hp
    rw [htk] at hp
    obtain ⟨g1, g2⟩ := mem_withIdx hp
    have := List.mem_range'_1.mp g1
    obtain ⟨g3, g4, g5⟩ := hat _ _ g2
    have hm := h.mt _ _ g4 (by omega)
    rw [show s.n.bb.closures.first + (p.1 - s.n.bb.closures.first) = p.1 by omega] at hm
    exact ⟨by omega, by omega, g3, g5, hm⟩
  have hmem : ∀ i x, s.f.applied < i → i ≤ c → Fsm.closureAt s.n.bb.closures i = some x →
      (i, x) ∈ taken s.n.bb.closures (s.n.bb.closures.popUntil c).1 := by
    intro i x g1 g2 g3
    rw [htk, List.mem_filterMap]
    refine ⟨i, List.mem_range'_1.mpr ⟨by omega, by omega⟩, ?_⟩
    unfold withIdx; rw [g3]; rfl
  have hmono : ∀ {i x}, Matches s i x → Matches (putFsm s ((fsmOf s).doCommitted e c)) i x :=
    fun hm => hm.mono rfl (fun _ h => h) (fun _ h => h)
  have hq : (putFsm s ((fsmOf s).doCommitted e c)).n.bb.closures = (s.n.bb.closures.popUntil c).1 := h5q
  have hpop : (putFsm s ((fsmOf s).doCommitted e c)).popped =
      s.popped ++ taken s.n.bb.closures (s.n.bb.closures.popUntil c).1 := by
    show s.popped ++ taken s.n.bb.closures ((fsmOf s).doCommitted e c).cq = _
    rw [h5q]; rfl
  have hcases := popUntil_queue hrc
  have hle0 : s.n.bb.pending ≠ 0 → ∀ p ∈ s.popped, p.1 < s.n.bb.closures.first := fun hp p hpp => (h.pb p hpp).2 hp
  refine {
    box := ?_
    role := h.role
    nd := h.nd
    li := h.li
    lc := h.lc
    al := ?_
    ap := ?_
    apl := ?_
    pend := ?_
    mt := ?_
    cons := ?_
    qg := h.qg
    ord := ?_
    pb := ?_
    pm := ?_
    out := ?_
    evA := ?_
    evR := ?_ }
  · show ∃ h', BallotBox.Reach ({ s.n.bb with closures := ((fsmOf s).doCommitted e c).cq }, h')
    rw [h5q]; exact hst
  · intro hp
    obtain ⟨a1, a2, a3⟩ := h.al hp
    rw [hq]
    show 1 ≤ _ ∧ s.log.length + 1 ≤ _ ∧ (s.n.logErr = false → _ = s.log.length + 1)
    rcases hcases with ⟨q1, q2⟩ | ⟨q1, q2, q3, q4⟩
    · rw [q1]; exact ⟨a1, a2, a3⟩
    · rw [q3]
      dsimp only
      rw [List.length_drop]
      refine ⟨by omega, by omega, fun h' => ?_⟩
      have := a3 h'
      omega
  · rw [hq]
    intro hne
    show ((fsmOf s).doCommitted e c).applied < _
    rw [h5]
    rcases hcases with ⟨q1, q2⟩ | ⟨q1, q2, q3, q4⟩
    · rw [q1] at hne ⊢
      rcases q2 with q2 | q2
      · exact absurd q2 hne
      · exact q2
    · rw [q3]; show c < c + 1; omega
  · show ((fsmOf s).doCommitted e c).applied ≤ s.log.length
    rw [h5]; omega
  · intro c' hc'
    have hc'' : ((fsmOf s).doCommitted e c).pend = some c' := hc'
    rw [h5p] at hc''
    exact h.pend c' hc''
  · intro k x
    rw [hq]
    show _ → _ ≤ s.log.length → _
    intro g1 g2
    apply hmono
    rcases hcases with ⟨q1, q2⟩ | ⟨q1, q2, q3, q4⟩
    · rw [q1] at g1 g2 ⊢; exact h.mt k x g1 g2
    · rw [q3] at g1 g2 ⊢
      dsimp only at g1 g2 ⊢
      rw [List.getElem?_drop] at g1
      have := h.mt _ x g1 (by omega)
      rw [show s.n.bb.closures.first + (c + 1 - s.n.bb.closures.first + k) = c + 1 + k by omega] at this
      exact this
  · rw [hq, hpop]
    refine h.cons.trans ?_
    show (_ : List C).Perm (dones s.queued ++ (_ ++ (s.errs ++ _)))
    rw [taken_rest hrc, List.map_append]
    refine List.Perm.append_left _ ?_
    generalize (taken s.n.bb.closures (s.n.bb.closures.popUntil c).1).map Prod.snd = T
    rw [List.append_assoc]
    refine (List.perm_append_comm_assoc T _ _).trans (List.Perm.append_left _ ?_)
    refine (List.perm_append_comm_assoc T _ _).trans (List.Perm.append_left _ ?_)
    exact List.perm_append_comm
  · rw [hpop, List.pairwise_append]
    refine ⟨h.ord, ?_, ?_⟩
    · rw [htk]; exact withIdx_sorted _ _ _
    · intro a ha b hb
      obtain ⟨_, _, g3, g4, _⟩ := hnew b hb
      have := hle0 (hpn g4) a ha
      omega
  · rw [hpop, hq]
    intro p hp
    show p.1 ≤ s.n.bb.lastCommitted ∧ (s.n.bb.pending ≠ 0 → _)
    rcases List.mem_append.mp hp with hp | hp
    · refine ⟨(h.pb p hp).1, fun h0 => ?_⟩
      have := hle0 h0 p hp
      rcases hcases with ⟨q1, q2⟩ | ⟨q1, q2, q3, q4⟩
      · rw [q1]; exact this
      · rw [q3]; show p.1 < c + 1; omega
    · obtain ⟨g1, g2, g3, g4, _⟩ := hnew p hp
      refine ⟨by omega, fun h0 => ?_⟩
      rcases hcases with ⟨q1, q2⟩ | ⟨q1, q2, q3, q4⟩
      · rw [q1, taken_self] at hp; cases hp
      · rw [q3]; show p.1 < c + 1; omega
  · rw [hpop]
    intro p hp
    apply hmono
    rcases List.mem_append.mp hp with hp | hp
    · exact h.pm p hp
    · exact (hnew p hp).2.2.2.2
  · -- what was shown and failed
    rw [hpop]
    obtain ⟨k0, m0, o1, o2, o3, o4, o5⟩ := h.out
    obtain ⟨o6, o7⟩ := o5 herr
    have hk0 : k0 = m0 + 1 := by omega
    have hall : (s.popped.filter (fun p => decide (p.1 ≤ m0))) = s.popped :=
      List.filter_eq_self.mpr (fun p hp => by simpa using o7 p hp)
    have hnone : (s.popped.filter (fun p => decide (k0 ≤ p.1))) = [] :=
      List.filter_eq_nil_iff.mpr (fun p hp => by have := o7 p hp; simp; omega)
    rw [hall] at o3
    rw [hnone] at o4
    show ∃ k m, k ≤ m + 1 ∧ m + 1 ≤ k + Fsm.rolled ((fsmOf s).doCommitted e c).ev ∧ shown ((fsmOf s).doCommitted e c).ev = _ ∧
      failed ((fsmOf s).doCommitted e c).ev = _ ∧ (((fsmOf s).doCommitted e c).err = false →
        Fsm.rolled ((fsmOf s).doCommitted e c).ev = 0 ∧ _)
    have hfl : ∀ m', (∀ p ∈ s.popped, p.1 ≤ m') → s.popped.filter (fun p => decide (p.1 ≤ m')) = s.popped :=
      fun m' h' => List.filter_eq_self.mpr (fun p hp => by simpa using h' p hp)
    have hfn : ∀ k', (∀ p ∈ s.popped, p.1 < k') → s.popped.filter (fun p => decide (k' ≤ p.1)) = [] :=
      fun k' h' => List.filter_eq_nil_iff.mpr (fun p hp => by have := h' p hp; simp; omega)
    rcases h6 with ⟨e1, e2, e3, e4, e5, e6⟩ | ⟨e1, e3, e4, e5, e6⟩
    · subst e2
      -- everything was shown
      refine ⟨max m m0 + 1, max m m0, by omega, by omega, ?_, ?_, fun _ => ⟨?_, ?_⟩⟩
      · rw [e3, shown_append, hsh, List.filter_append, List.map_append]
        congr 1
        · show shown s.f.ev = _
          rw [o3]; congr 1; symm
          exact List.filter_eq_self.mpr (fun p hp => by have := o7 p hp; simp; omega)
        · rw [List.filter_eq_self.mpr (fun p hp => by have := (hnew p hp).2.1; simp; omega), htk, withIdx_snd]
      · rw [e3, failed_append, failed_plain h1, List.append_nil]
        show failed s.f.ev = _
        rw [o4, List.filter_eq_nil_iff.mpr]
        intro p hp
        rcases List.mem_append.mp hp with hp | hp
        · have := o7 p hp; simp; omega
        · have := (hnew p hp).2.1; simp; omega
      · rw [e3, Fsm.rolled_append, e5]; exact o6
      · intro p hp
        rcases List.mem_append.mp hp with hp | hp
        · have := o7 p hp; omega
        · have := (hnew p hp).2.1; omega
    · -- an error
      by_cases htn : taken s.n.bb.closures (s.n.bb.closures.popUntil c).1 = []
      · -- no closure at all in the range
        have hno : ∀ i, s.f.applied < i → i ≤ c → Fsm.closureAt s.n.bb.closures i = none := by
          intro i g1 g2
          cases hx : Fsm.closureAt s.n.bb.closures i with
          | none => rfl
          | some x => have := hmem i x g1 g2 hx; rw [htn] at this; cases this
        have hz : ∀ a b, b ≤ c → (List.range' a (b + 1 - a)).filterMap (Fsm.closureAt s.n.bb.closures) = [] := by
          intro a b hb
          apply filterMap_none
          intro i hi
          have := List.mem_range'_1.mp hi
          by_cases hi2 : i ≤ s.f.applied
          · exact closureAt_below h.ap hi2
          · exact hno i (by omega) (by omega)
        have hfz : Fsm.closuresFrom (fsmOf s).cq (m + 1 - Fsm.rolled evs) c = [] := hz _ c (Nat.le_refl _)
        have hsz : shown evs = [] := by
          rw [hsh, show m - s.f.applied = m + 1 - (s.f.applied + 1) by omega]; exact hz _ m h3
        refine ⟨m0 + 1, m0, by omega, by omega, ?_, ?_, fun h' => by rw [e1] at h'; cases h'⟩
        · rw [htn, List.append_nil, hall, e3, hfz]
          simp only [List.map_nil, List.append_nil]
          rw [shown_append, shown_append, hsz]
          show shown s.f.ev ++ [] ++ [] = _
          rw [List.append_nil, List.append_nil]; exact o3
        · rw [htn, List.append_nil, ← hk0, hnone, e3, hfz]
          simp only [List.map_nil, List.append_nil]
          rw [failed_append, failed_append, failed_plain h1]
          show failed s.f.ev ++ [] ++ [] = _
          rw [List.append_nil, List.append_nil]; exact o4
      · -- there are closures: everything popped before lies below them, at or below the applied index
        obtain ⟨p0, hp0⟩ := List.exists_mem_of_ne_nil _ htn
        obtain ⟨g1, g2, g3, g4, _⟩ := hnew p0 hp0
        have haf := h.ap g4
        have hbelow := hle0 (hpn g4)
        have hfirst : ∀ i, i < s.n.bb.closures.first → Fsm.closureAt s.n.bb.closures i = none := by
          intro i hi; unfold Fsm.closureAt; rw [if_pos hi]
        -- the first rolled back index, but not below the first closure
        by_cases hmf : m + 1 ≤ s.n.bb.closures.first
        · -- nothing with a closure was shown: every closure of this round fails
          have hs0 : shown evs = [] := by
            rw [hsh]; apply filterMap_none
            intro i hi
            have := List.mem_range'_1.mp hi
            exact hfirst i (by omega)
          have hf0 : Fsm.closuresFrom (fsmOf s).cq (m + 1 - Fsm.rolled evs) c =
              (taken s.n.bb.closures (s.n.bb.closures.popUntil c).1).map Prod.snd := by
            rw [htk, withIdx_snd]
            show (List.range' (m + 1 - Fsm.rolled evs) (c + 1 - (m + 1 - Fsm.rolled evs))).filterMap (Fsm.closureAt s.n.bb.closures) = _
            by_cases hk : m + 1 - Fsm.rolled evs ≤ s.f.applied + 1
            · rw [show List.range' (m + 1 - Fsm.rolled evs) (c + 1 - (m + 1 - Fsm.rolled evs)) =
                List.range' (m + 1 - Fsm.rolled evs) (s.f.applied + 1 - (m + 1 - Fsm.rolled evs)) ++
                  List.range' (s.f.applied + 1) (c - s.f.applied) from ?_, List.filterMap_append,
                filterMap_none (l := List.range' (m + 1 - Fsm.rolled evs) (s.f.applied + 1 - (m + 1 - Fsm.rolled evs))) ?_, List.nil_append]
              · intro i hi
                have := List.mem_range'_1.mp hi
                exact hfirst i (by omega)
              · have := List.range'_append (s := m + 1 - Fsm.rolled evs) (m := s.f.applied + 1 - (m + 1 - Fsm.rolled evs))
                  (n := c - s.f.applied) (step := 1)
                rw [show m + 1 - Fsm.rolled evs + 1 * (s.f.applied + 1 - (m + 1 - Fsm.rolled evs)) = s.f.applied + 1 by omega] at this
                rw [this]; congr 1; omega
            · have hsp := range_split (a := s.f.applied) (b := m + 1 - Fsm.rolled evs - 1) (c := c) (by omega) (by omega)
              rw [hsp, List.filterMap_append, filterMap_none (l := List.range' (s.f.applied + 1) _) ?_, List.nil_append]
              · congr 1; congr 1 <;> omega
              · intro i hi
                have := List.mem_range'_1.mp hi
                exact hfirst i (by omega)
          refine ⟨s.n.bb.closures.first, s.n.bb.closures.first - 1, by omega, by omega, ?_, ?_, fun h' => by rw [e1] at h'; cases h'⟩
          · rw [e3, shown_append, shown_append, shown_append, hs0, shown_map]
            show shown s.f.ev ++ [] ++ [] ++ [] = _
            simp only [List.append_nil]
            rw [o3, List.filter_append]
            rw [hfl (s.n.bb.closures.first - 1) (fun p hp => by have := hbelow p hp; omega)]
            rw [List.filter_eq_nil_iff.mpr (fun p hp => by have := (hnew p hp).2.2.1; simp; omega), List.append_nil]
          · rw [e3, failed_append, failed_append, failed_append, failed_plain h1, failed_map, hf0]
            show failed s.f.ev ++ [] ++ [] ++ _ = _
            rw [o4, List.filter_append]
            rw [hfn s.n.bb.closures.first (fun p hp => by have := hbelow p hp; omega)]
            rw [List.filter_eq_self.mpr (fun p hp => by have := (hnew p hp).2.2.1; simp; omega)]
            rfl
        · -- closures up to m were shown, those from k on fail
          refine ⟨max (m + 1 - Fsm.rolled evs) s.n.bb.closures.first, m, by omega, ?_, ?_, ?_, fun h' => by rw [e1] at h'; cases h'⟩
          · rw [e3, Fsm.rolled_append, Fsm.rolled_append, Fsm.rolled_append]
            show m + 1 ≤ _ + (Fsm.rolled s.f.ev + Fsm.rolled evs + _ + _)
            omega
          · rw [e3, shown_append, shown_append, shown_append, hsh, shown_map]
            show shown s.f.ev ++ _ ++ [] ++ [] = _
            simp only [List.append_nil]
            rw [o3, List.filter_append, List.map_append]
            rw [hfl m (fun p hp => by have := hbelow p hp; omega)]
            rw [htk, filter_withIdx _ (fun i => decide (i ≤ m)), filter_range_le s.f.applied _ _ h2 h3]
          · rw [e3, failed_append, failed_append, failed_append, failed_plain h1, failed_map]
            show failed s.f.ev ++ [] ++ [] ++ Fsm.closuresFrom s.n.bb.closures _ c = _
            rw [o4, List.filter_append, List.map_append]
            rw [hfn (max (m + 1 - Fsm.rolled evs) s.n.bb.closures.first) (fun p hp => by have := hbelow p hp; omega)]
            rw [htk, filter_withIdx _ (fun i => decide (max (m + 1 - Fsm.rolled evs) s.n.bb.closures.first ≤ i)),
              filter_range_ge _ _ _ (by omega) (by omega)]
            simp only [List.map_nil, List.nil_append]
            unfold Fsm.closuresFrom
            by_cases hk : s.n.bb.closures.first ≤ m + 1 - Fsm.rolled evs
            · rw [Nat.max_eq_left hk]
            · rw [Nat.max_eq_right (by omega)]
              have := List.range'_append (s := m + 1 - Fsm.rolled evs) (m := s.n.bb.closures.first - (m + 1 - Fsm.rolled evs))
                (n := c + 1 - s.n.bb.closures.first) (step := 1)
              rw [show m + 1 - Fsm.rolled evs + 1 * (s.n.bb.closures.first - (m + 1 - Fsm.rolled evs)) = s.n.bb.closures.first by omega,
                show s.n.bb.closures.first - (m + 1 - Fsm.rolled evs) + (c + 1 - s.n.bb.closures.first) = c + 1 - (m + 1 - Fsm.rolled evs) by omega] at this
              rw [← this, List.filterMap_append, filterMap_none (l := List.range' (m + 1 - Fsm.rolled evs) _) ?_, List.nil_append]
              intro i hi
              have := List.mem_range'_1.mp hi
              exact hfirst i (by omega)
  · intro i d x hx
    rw [hpop]
    show 1 ≤ i ∧ i ≤ s.n.bb.lastCommitted ∧ (∃ t, s.log[i - 1]? = _) ∧ _
    rcases hev1 _ hx with hx | hx | hx | ⟨y, hx⟩
    · obtain ⟨a1, a2, a3, a4⟩ := h.evA i d x hx
      exact ⟨a1, a2, a3, fun z hz => List.mem_append_left _ (a4 z hz)⟩
    · have hx' := mem_told hx (by intro n; simp)
      rw [h1t] at hx'
      obtain ⟨b1, b2, b3, b4⟩ := apply_mem_expect hx'
      have b1' : s.f.applied < i := b1
      refine ⟨by omega, by omega, ?_, ?_⟩
      · rw [entryAt_some (by omega) (by omega)]
        exact ⟨(entryAt s.log i).term, by rw [← b3]⟩
      · intro z hz
        rw [hz] at b4
        exact List.mem_append_right _ (hmem i z b1' (by omega) b4.symm)
    · cases hx
    · cases hx
  · intro x hx
    rw [hpop]
    show ∃ i, _ ∧ ∀ t d, s.log[i - 1]? ≠ _
    rcases hev1 _ hx with hx | hx | hx | ⟨y, hx⟩
    · obtain ⟨i, a1, a2⟩ := h.evR x hx
      exact ⟨i, List.mem_append_left _ a1, a2⟩
    · have hx' := mem_told hx (by intro n; simp)
      rw [h1t] at hx'
      obtain ⟨i, b1, b2, b3, b4⟩ := ran_mem_expect hx'
      have b1' : s.f.applied < i := b1
      refine ⟨i, List.mem_append_right _ (hmem i x b1' (by omega) b4), ?_⟩
      intro t d ht
      rw [entryAt_some (by omega) (by omega)] at ht
      exact b3 d (by rw [Option.some.inj ht])
    · cases hx
    · cases hx

end Braft.Pipe
