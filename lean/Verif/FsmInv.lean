import Verif.Fsm
/-
Lemmas about one do_committed.
-/
set_option linter.unusedSectionVars false
set_option linter.unusedSimpArgs false
set_option linter.unusedVariables false

namespace Braft.Fsm
variable {D C : Type}

/-- The entries passed to on_apply, with the closures. -/
def seen : List (Ev D C) → List (Nat × D × Option C)
  | [] => []
  | .apply i d c :: r => (i, d, c) :: seen r
  | _ :: r => seen r

/-- Total of the rollbacks asked for. -/
def rolled : List (Ev D C) → Nat
  | [] => 0
  | .rollback n :: r => n + rolled r
  | _ :: r => rolled r

/-- The data entries of the log with `a < index ≤ b`, with their closures. -/
def dataOf (clog : Nat → Entry D) (cl : Nat → Option C) (a b : Nat) : List (Nat × D × Option C) :=
  (List.range' (a + 1) (b - a)).filterMap fun i =>
    match (clog i).kind with
    | .data d => some (i, d, cl i)
    | _ => none

/-- What a state machine that never rolls back is told about the indexes `a < i ≤ b`: the data entries through
on_apply, the stable configurations through on_configuration_committed; the closures of entries that are not data
are run by the FSMCaller. -/
def expect (clog : Nat → Entry D) (cl : Nat → Option C) (a b : Nat) : List (Ev D C) :=
  (List.range' (a + 1) (b - a)).flatMap fun i =>
    match (clog i).kind with
    | .data d => [.apply i d (cl i)]
    | .conf j => (if j then [] else [.confCommitted i]) ++ (match cl i with | some c => [.ran c] | none => [])
    | .noop => match cl i with | some c => [.ran c] | none => []

/-- The events without the user's rollbacks. -/
def told : List (Ev D C) → List (Ev D C)
  | [] => []
  | .rollback _ :: r => told r
  | e :: r => e :: told r

theorem told_append (x y : List (Ev D C)) : told (x ++ y) = told x ++ told y := by
  induction x with
  | nil => rfl
  | cons e x ih => cases e <;> simp [told, ih]

theorem seen_append (x y : List (Ev D C)) : seen (x ++ y) = seen x ++ seen y := by
  induction x with
  | nil => rfl
  | cons e x ih => cases e <;> simp [seen, ih]

theorem seen_told (x : List (Ev D C)) : seen (told x) = seen x := by
  induction x with
  | nil => rfl
  | cons e x ih => cases e <;> simp [seen, told, ih]

theorem expect_self (clog : Nat → Entry D) (cl : Nat → Option C) (a : Nat) : expect clog cl a a = [] := by
  simp [expect]

theorem expect_append (clog : Nat → Entry D) (cl : Nat → Option C) {a b c : Nat} (h1 : a ≤ b) (h2 : b ≤ c) :
    expect clog cl a b ++ expect clog cl b c = expect clog cl a c := by
  unfold expect
  rw [← List.flatMap_append]
  congr 1
  have := List.range'_append (s := a + 1) (m := b - a) (n := c - b) (step := 1)
  rw [show a + 1 + 1 * (b - a) = b + 1 by omega] at this
  rw [this]
  congr 1; omega

theorem expect_one (clog : Nat → Entry D) (cl : Nat → Option C) (a : Nat) :
    expect clog cl a (a + 1) = match (clog (a + 1)).kind with
    | .data d => [.apply (a + 1) d (cl (a + 1))]
    | .conf j => (if j then [] else [.confCommitted (a + 1)]) ++ (match cl (a + 1) with | some c => [.ran c] | none => [])
    | .noop => match cl (a + 1) with | some c => [.ran c] | none => [] := by
  unfold expect
  rw [show a + 1 - a = 1 by omega]
  simp

theorem seen_expect (clog : Nat → Entry D) (cl : Nat → Option C) (a b : Nat) :
    seen (expect clog cl a b) = dataOf clog cl a b := by
  unfold expect dataOf
  generalize List.range' (a + 1) (b - a) = l
  induction l with
  | nil => rfl
  | cons i l ih =>
    rw [List.flatMap_cons, seen_append, ih, List.filterMap_cons]
    cases (clog i).kind with
    | data d => rfl
    | conf j => cases j <;> cases cl i <;> rfl
    | noop => cases cl i <;> rfl

theorem expect_congr {clog : Nat → Entry D} {cl cl' : Nat → Option C} {a b : Nat} (h : ∀ i, i ≤ b → cl i = cl' i) :
    expect clog cl a b = expect clog cl' a b := by
  unfold expect
  have : ∀ i ∈ List.range' (a + 1) (b - a), cl i = cl' i := by
    intro i hi
    have := List.mem_range'_1.mp hi
    exact h i (by omega)
  generalize List.range' (a + 1) (b - a) = l at *
  induction l with
  | nil => rfl
  | cons i l ih =>
    rw [List.flatMap_cons, List.flatMap_cons, this i (by simp), ih (fun j hj => this j (by simp [hj]))]

theorem rolled_append (x y : List (Ev D C)) : rolled (x ++ y) = rolled x + rolled y := by
  induction x with
  | nil => simp [rolled]
  | cons e x ih => cases e <;> simp [rolled, ih]; omega

theorem dataOf_self (clog : Nat → Entry D) (cl : Nat → Option C) (a : Nat) : dataOf clog cl a a = [] := by
  simp [dataOf]

theorem dataOf_append (clog : Nat → Entry D) (cl : Nat → Option C) {a b c : Nat} (h1 : a ≤ b) (h2 : b ≤ c) :
    dataOf clog cl a b ++ dataOf clog cl b c = dataOf clog cl a c := by
  unfold dataOf
  rw [← List.filterMap_append]
  congr 1
  have := List.range'_append (s := a + 1) (m := b - a) (n := c - b) (step := 1)
  rw [show a + 1 + 1 * (b - a) = b + 1 by omega] at this
  rw [this]
  congr 1; omega

theorem dataOf_one_data {clog : Nat → Entry D} {cl : Nat → Option C} {a : Nat} {d : D} (h : (clog (a + 1)).kind = .data d) :
    dataOf clog cl a (a + 1) = [(a + 1, d, cl (a + 1))] := by
  unfold dataOf
  rw [show a + 1 - a = 1 by omega]
  simp [h]

theorem dataOf_one_none {clog : Nat → Entry D} {cl : Nat → Option C} {a : Nat} (h : ∀ d, (clog (a + 1)).kind ≠ .data d) :
    dataOf clog cl a (a + 1) = [] := by
  unfold dataOf
  rw [show a + 1 - a = 1 by omega]
  cases hk : (clog (a + 1)).kind with
  | data d => exact absurd hk (h d)
  | conf j => simp [hk]
  | noop => simp [hk]

/-- The log manager shows the committed log, or fails. -/
def LogOk (clog : Nat → Entry D) (log : Nat → Option (Entry D)) (c : Nat) : Prop :=
  ∀ i, 1 ≤ i → i ≤ c → log i = some (clog i) ∨ log i = none

def isData : Option (Entry D) → Bool
  | some ⟨_, .data _⟩ => true
  | _ => false

def DataAt (clog : Nat → Entry D) (m : Nat) : Prop := ∃ d, (clog m).kind = .data d

/-- The iterator with everything up to `m` passed to the user and `t` rolled back. -/
structure P (clog : Nat → Entry D) (log : Nat → Option (Entry D)) (it : It D C) (m t : Nat) : Prop where
  dat : DataAt clog m
  fail : it.err = true → t = 0 → log (m + 1) = none ∧ m < it.committed
  le : m ≤ it.committed
  shown : isData it.entry = true → it.err = false ∧ it.cur = m ∧ t = 0 ∧ it.entry = some (clog m)
  notShown : isData it.entry = false → it.cur = m + 1 - t
  entry : it.err = false → it.cur ≤ it.committed → it.entry = some (clog it.cur)
  past : it.committed < it.cur → it.entry = none
  roll : 0 < t → it.err = true

theorem data_some {it : It D C} {d : D} (h : it.data? = some d) :
    it.err = false ∧ it.cur ≤ it.committed ∧ ∃ t, it.entry = some ⟨t, .data d⟩ := by
  unfold It.data? It.good at h
  split at h
  · rename_i hg
    simp only [Bool.and_eq_true, decide_eq_true_eq, Bool.not_eq_true'] at hg
    refine ⟨hg.2, hg.1, ?_⟩
    split at h
    · rename_i t d' he; cases h; exact ⟨t, he⟩
    · cases h
  · cases h

theorem data_none {it : It D C} (h : it.data? = none) :
    it.err = true ∨ it.committed < it.cur ∨ isData it.entry = false := by
  unfold It.data? It.good at h
  split at h
  · right; right
    cases he : it.entry with
    | none => rfl
    | some x =>
      obtain ⟨t, k⟩ := x
      cases k with
      | data d => rw [he] at h; cases h
      | conf j => rfl
      | noop => rfl
  · rename_i hg
    simp only [Bool.and_eq_true, decide_eq_true_eq, Bool.not_eq_true', not_and, Bool.not_eq_false] at hg
    by_cases hc : it.cur ≤ it.committed
    · exact Or.inl (hg hc)
    · exact Or.inr (Or.inl (by omega))

theorem next_const (log : Nat → Option (Entry D)) (it : It D C) :
    (it.next log).dones = it.dones ∧ (it.next log).first = it.first ∧ (it.next log).committed = it.committed := by
  unfold It.next
  split
  · split <;> exact ⟨rfl, rfl, rfl⟩
  · exact ⟨rfl, rfl, rfl⟩

theorem rollback_const (it : It D C) (n : Nat) :
    (it.rollback n).dones = it.dones ∧ (it.rollback n).first = it.first ∧ (it.rollback n).committed = it.committed := by
  unfold It.rollback
  split <;> exact ⟨rfl, rfl, rfl⟩

theorem doneAt_congr {it it' : It D C} (h1 : it'.dones = it.dones) (h2 : it'.first = it.first) : it'.doneAt = it.doneAt := by
  funext i; unfold It.doneAt; rw [h1, h2]

/-- Advancing from an entry that was dealt with: what the iterator shows then. `P'` for the entry not yet
shown is `cur = m + 1`. -/
theorem next_spec {clog : Nat → Entry D} {log} {it : It D C} {m : Nat} (hl : LogOk clog log it.committed)
    (hm : it.cur = m) (hle : m ≤ it.committed) (herr : it.err = false) :
    (it.next log).cur = m + 1 ∧
    ((it.next log).err = false → (it.next log).cur ≤ it.committed → (it.next log).entry = some (clog (m + 1))) ∧
    (it.committed < m + 1 → (it.next log).entry = none ∧ (it.next log).err = false) ∧
    ((it.next log).err = true → (it.next log).entry = none ∧ log (m + 1) = none ∧ m < it.committed) := by
  subst hm
  unfold It.next
  rw [if_pos hle]
  by_cases h : it.cur + 1 ≤ it.committed
  · rw [if_pos h]
    dsimp only
    refine ⟨rfl, ?_, fun h' => absurd h' (by omega), ?_⟩
    · intro he _
      rcases hl (it.cur + 1) (by omega) h with h1 | h1
      · exact h1
      · rw [h1] at he; simp at he
    · intro he
      rw [herr] at he
      have : log (it.cur + 1) = none := by simpa using he
      exact ⟨this, this, h⟩
  · rw [if_neg h]
    exact ⟨rfl, fun _ h' => absurd h' h, fun _ => ⟨rfl, herr⟩, fun he => by rw [show it.err = true from he] at herr; cases herr⟩

theorem next_P {clog : Nat → Entry D} {log} {it : It D C} {m : Nat} (hl : LogOk clog log it.committed)
    (hm : it.cur = m) (hle : m ≤ it.committed) (herr : it.err = false) (hdat : DataAt clog m) :
    ∃ m', P clog log (it.next log) m' 0 ∧ m ≤ m' ∧ told (it.next log).shows = expect clog it.doneAt m m' := by
  obtain ⟨h1, h2, h3, h4⟩ := next_spec hl hm hle herr
  obtain ⟨hd, hf, hc⟩ := next_const log it
  cases hdt : (it.next log).data? with
  | some d =>
    obtain ⟨e1, e2, t, e3⟩ := data_some hdt
    rw [hc] at e2
    have he := h2 e1 e2
    refine ⟨m + 1, ⟨⟨d, by rw [e3] at he; rw [← Option.some.inj he]⟩, (by rw [e1]; intro h; cases h), by rw [hc]; omega, ?_, ?_, ?_, ?_, ?_⟩, by omega, ?_⟩
    · intro _; exact ⟨e1, h1, rfl, he⟩
    · intro h; rw [e3] at h; simp [isData] at h
    · intro _ _; rw [h1]; exact he
    · intro h; rw [hc] at h; omega
    · intro h; omega
    · unfold It.shows
      rw [hdt, h1, doneAt_congr hd hf]
      rw [e3] at he
      rw [expect_one, show (clog (m + 1)).kind = .data d by rw [← Option.some.inj he]]
      rfl
  | none =>
    refine ⟨m, ⟨hdat, fun h _ => by rw [hc]; exact (h4 h).2, by rw [hc]; omega, ?_, ?_, ?_, ?_, ?_⟩, by omega, ?_⟩
    · intro hi
      exfalso
      rcases data_none hdt with h | h | h
      · rw [(h4 h).1] at hi; simp [isData] at hi
      · rw [hc, h1] at h
        rw [(h3 (by omega)).1] at hi; simp [isData] at hi
      · rw [h] at hi; cases hi
    · intro _; exact h1
    · intro he hle'; rw [hc] at hle'; rw [h1]; exact h2 he hle'
    · intro h; rw [hc] at h; exact (h3 (by omega)).1
    · intro h; omega
    · unfold It.shows
      rw [hdt, expect_self]; rfl

theorem user_spec {clog : Nat → Entry D} {log} (us : List UOp) {it : It D C} {m t : Nat} (hl : LogOk clog log it.committed)
    (hp : P clog log it m t) :
    ∃ m', P clog log (user log it us).1 m' (t + rolled (user log it us).2) ∧ m ≤ m' ∧
      told (user log it us).2 = expect clog it.doneAt m m' ∧
      (user log it us).1.dones = it.dones ∧ (user log it us).1.first = it.first ∧
      (user log it us).1.committed = it.committed ∧
      (it.err = true → (user log it us).1.err = true) := by
  induction us generalizing it m t with
  | nil =>
    refine ⟨m, ?_, Nat.le_refl _, ?_, rfl, rfl, rfl, fun h => h⟩
    · simpa [user, rolled] using hp
    · rw [expect_self]; rfl
  | cons u us ih =>
    cases u with
    | next =>
      unfold user
      cases hd : it.data? with
      | none => exact ih hl hp
      | some d =>
        obtain ⟨e1, e2, t', e3⟩ := data_some hd
        obtain ⟨s1, s2, s3, s4⟩ := hp.shown (by rw [e3]; rfl)
        obtain ⟨c1, c2, c3⟩ := next_const log it
        obtain ⟨m1, hp1, hm1, hs1⟩ := next_P hl s2 hp.le e1 hp.dat
        obtain ⟨m2, hp2, hm2, hs2, k1, k2, k3, k4⟩ := ih (it := it.next log) (m := m1) (t := 0) (by rw [c3]; exact hl) hp1
        refine ⟨m2, ?_, by omega, ?_, by rw [k1, c1], by rw [k2, c2], by rw [k3, c3], ?_⟩
        · subst s3
          have hr : rolled (it.next log).shows = 0 := by
            unfold It.shows; split <;> rfl
          show P clog log (user log (it.next log) us).1 m2 (0 + rolled ((it.next log).shows ++ (user log (it.next log) us).2))
          rw [rolled_append, hr, Nat.zero_add]
          simpa using hp2
        · show told ((it.next log).shows ++ (user log (it.next log) us).2) = _
          rw [told_append, hs1, hs2, doneAt_congr c1 c2, expect_append _ _ hm1 hm2]
        · intro h; rw [e1] at h; cases h
    | rollback n =>
      obtain ⟨c1, c2, c3⟩ := rollback_const it n
      have hpn : P clog log (it.rollback n) m (t + n) := by
        unfold It.rollback
        split
        · rename_i h0; subst h0; exact hp
        · rename_i h0
          refine ⟨hp.dat, fun _ h => by omega, hp.le, fun h => by simp [isData] at h, fun _ => ?_, fun h => by simp at h, fun _ => rfl, fun _ => rfl⟩
          dsimp only
          cases hi : isData it.entry with
          | true =>
            obtain ⟨s1, s2, s3, s4⟩ := hp.shown hi
            obtain ⟨tt, dd, hh⟩ : ∃ tt dd, it.entry = some ⟨tt, .data dd⟩ := by
              cases he : it.entry with
              | none => rw [he] at hi; cases hi
              | some x =>
                obtain ⟨a, k⟩ := x
                cases k with
                | data d => exact ⟨_, _, rfl⟩
                | conf j => rw [he] at hi; cases hi
                | noop => rw [he] at hi; cases hi
            rw [hh]; dsimp only; omega
          | false =>
            have h1 := hp.notShown hi
            cases he : it.entry with
            | none => dsimp only; omega
            | some x =>
              obtain ⟨a, k⟩ := x
              cases k with
              | data d => rw [he] at hi; cases hi
              | conf j => dsimp only; omega
              | noop => dsimp only; omega
      obtain ⟨m2, hp2, hm2, hs2, k1, k2, k3, k4⟩ := ih (it := it.rollback n) (m := m) (t := t + n) (by rw [c3]; exact hl) hpn
      refine ⟨m2, ?_, hm2, ?_, by show (user log (it.rollback n) us).1.dones = _; rw [k1, c1],
        by show (user log (it.rollback n) us).1.first = _; rw [k2, c2],
        by show (user log (it.rollback n) us).1.committed = _; rw [k3, c3], ?_⟩
      · show P clog log (user log (it.rollback n) us).1 m2 (t + (n + rolled (user log (it.rollback n) us).2))
        rw [← Nat.add_assoc]; exact hp2
      · show told (user log (it.rollback n) us).2 = _
        rw [hs2, doneAt_congr c1 c2]
      · intro h
        apply k4
        unfold It.rollback; split
        · exact h
        · rfl

/-- Before an entry is shown. -/
structure Q (clog : Nat → Entry D) (log : Nat → Option (Entry D)) (it : It D C) (m t : Nat) : Prop where
  dat : 0 < t → DataAt clog m
  fail : it.err = true → t = 0 → log (m + 1) = none ∧ m < it.committed
  le : m ≤ it.committed
  cur : it.cur = m + 1 - t
  entry : it.err = false → it.cur ≤ it.committed → it.entry = some (clog it.cur)
  roll : 0 < t → it.err = true

theorem start_Q {clog : Nat → Entry D} {log} (dones : List (Option C)) (f a c : Nat) (hl : LogOk clog log c) (h : a ≤ c) :
    Q clog log (It.start log dones f a c) a 0 ∧ (It.start log dones f a c).dones = dones ∧
    (It.start log dones f a c).first = f ∧ (It.start log dones f a c).committed = c := by
  unfold It.start
  obtain ⟨c1, c2, c3⟩ := next_const log (It.mk dones f a c (none : Option (Entry D)) false)
  obtain ⟨h1, h2, h3, h4⟩ := next_spec (m := a) (it := It.mk dones f a c (none : Option (Entry D)) false) hl rfl h rfl
  refine ⟨⟨by omega, fun h _ => by rw [c3]; exact (h4 h).2, by rw [c3]; exact h, h1, ?_, by omega⟩, c1, c2, c3⟩
  intro he hle
  rw [c3] at hle
  rw [h1]
  exact h2 he hle

theorem body_spec {clog : Nat → Entry D} {e : Env D} {it : It D C} {m : Nat} (hl : LogOk clog e.log it.committed)
    (hq : Q clog e.log it m 0) (hg : it.good = true) :
    ∃ m', Q clog e.log (body e it).1 m' (rolled (body e it).2) ∧ m < m' ∧
      told (body e it).2 = expect clog it.doneAt m m' ∧
      (body e it).1.dones = it.dones ∧ (body e it).1.first = it.first ∧ (body e it).1.committed = it.committed := by
  unfold It.good at hg
  simp only [Bool.and_eq_true, decide_eq_true_eq, Bool.not_eq_true'] at hg
  have hcur := hq.cur
  have hent := hq.entry hg.2 hg.1
  obtain ⟨c1, c2, c3⟩ := next_const e.log it
  have hm1 : it.cur = m + 1 := by omega
  have hnd : (∀ d, (clog it.cur).kind ≠ .data d) → ∀ x : Option (Entry D), it.entry = x → (match x with
      | some ⟨_, .data _⟩ => True | _ => False) → False := by
    intro h x hx ht
    rw [hent] at hx
    subst hx
    split at ht
    · rename_i t d heq
      exact h d (by rw [Option.some.inj heq])
    · exact ht
  unfold body
  cases hk : (clog it.cur).kind with
  | data d =>
    have he : it.entry = some ⟨(clog it.cur).term, .data d⟩ := by rw [hent, ← hk]
    rw [he]
    dsimp only
    have hd : it.data? = some d := by
      unfold It.data? It.good
      rw [he]; simp [hg.1, hg.2]
    have hp : P clog e.log it (m + 1) 0 := by
      refine ⟨⟨d, by rw [← hm1]; exact hk⟩, (by rw [hg.2]; intro h; cases h), by omega, fun _ => ⟨hg.2, by omega, rfl, by rw [hent]; congr 2⟩, fun h => ?_, fun _ _ => hent, fun h => by omega, fun h => by omega⟩
      rw [he] at h; simp [isData] at h
    obtain ⟨m2, hp2, hm2, hs2, k1, k2, k3, k4⟩ := user_spec (e.user it.cur) hl hp
    rw [Nat.zero_add] at hp2
    have hsh : told it.shows = expect clog it.doneAt m (m + 1) := by
      unfold It.shows
      rw [hd, expect_one, ← hm1, hk]; rfl
    have hrs : rolled it.shows = 0 := by unfold It.shows; split <;> rfl
    have htold : told (it.shows ++ (user e.log it (e.user it.cur)).2) = expect clog it.doneAt m m2 := by
      rw [told_append, hsh, hs2, expect_append _ _ (by omega) hm2]
    have hroll : rolled (it.shows ++ (user e.log it (e.user it.cur)).2) = rolled (user e.log it (e.user it.cur)).2 := by
      rw [rolled_append, hrs, Nat.zero_add]
    cases hdt : (user e.log it (e.user it.cur)).1.data? with
    | some d' =>
      dsimp only
      obtain ⟨e1, e2, t', e3⟩ := data_some hdt
      obtain ⟨s1, s2, s3, s4⟩ := hp2.shown (by rw [e3]; rfl)
      obtain ⟨d1, d2, d3⟩ := next_const e.log (user e.log it (e.user it.cur)).1
      obtain ⟨n1, n2, n3, n4⟩ := next_spec (it := (user e.log it (e.user it.cur)).1) (by rw [k3]; exact hl) s2 hp2.le e1
      refine ⟨m2, ⟨by intro _; exact hp2.dat, fun h _ => by rw [d3]; exact (n4 h).2, by rw [d3]; exact hp2.le, ?_, ?_, ?_⟩, by omega, htold, by rw [d1, k1], by rw [d2, k2], by rw [d3, k3]⟩
      · rw [hroll, s3]; exact n1
      · intro he hle; rw [n1]; rw [d3] at hle; exact n2 he hle
      · rw [hroll, s3]; intro h; omega
    | none =>
      dsimp only
      refine ⟨m2, ⟨fun _ => hp2.dat, by rw [hroll]; exact hp2.fail, hp2.le, ?_, hp2.entry, ?_⟩, by omega, htold, k1, k2, k3⟩
      · rw [hroll]
        apply hp2.notShown
        cases hi : isData (user e.log it (e.user it.cur)).1.entry with
        | false => rfl
        | true =>
          exfalso
          obtain ⟨s1, s2, s3, s4⟩ := hp2.shown hi
          rcases data_none hdt with h | h | h
          · rw [s1] at h; cases h
          · have := hp2.le; omega
          · rw [hi] at h; cases h
      · rw [hroll]; exact hp2.roll
  | conf j =>
    have he : it.entry = some ⟨(clog it.cur).term, .conf j⟩ := by rw [hent, ← hk]
    rw [he]
    dsimp only
    obtain ⟨n1, n2, n3, n4⟩ := next_spec (it := it) hl hm1 (by omega) hg.2
    refine ⟨m + 1, ⟨by intro h; exfalso; revert h; rw [rolled_append]; (cases it.doneAt it.cur <;> cases j <;> simp [rolled]), fun h _ => by rw [c3]; exact (n4 h).2, by rw [c3]; omega, ?_, ?_, ?_⟩, by omega, ?_, c1, c2, c3⟩
    · rw [n1, rolled_append]
      cases it.doneAt it.cur <;> cases j <;> rfl
    · intro h1 h2; rw [n1]; rw [c3] at h2; exact n2 h1 h2
    · rw [rolled_append]; intro h
      exfalso; revert h; cases it.doneAt it.cur <;> cases j <;> simp [rolled]
    · rw [expect_one, ← hm1, hk, told_append]
      cases it.doneAt it.cur <;> cases j <;> rfl
  | noop =>
    have he : it.entry = some ⟨(clog it.cur).term, .noop⟩ := by rw [hent, ← hk]
    rw [he]
    dsimp only
    obtain ⟨n1, n2, n3, n4⟩ := next_spec (it := it) hl hm1 (by omega) hg.2
    refine ⟨m + 1, ⟨by intro h; exfalso; revert h; rw [rolled_append]; (cases it.doneAt it.cur <;> simp [rolled]), fun h _ => by rw [c3]; exact (n4 h).2, by rw [c3]; omega, ?_, ?_, ?_⟩, by omega, ?_, c1, c2, c3⟩
    · rw [n1, rolled_append]
      cases it.doneAt it.cur <;> rfl
    · intro h1 h2; rw [n1]; rw [c3] at h2; exact n2 h1 h2
    · rw [rolled_append]; intro h
      exfalso; revert h; cases it.doneAt it.cur <;> simp [rolled]
    · rw [expect_one, ← hm1, hk, told_append]
      cases it.doneAt it.cur <;> rfl

/-- The loop: it ends, and what was shown. -/
theorem loop_spec {clog : Nat → Entry D} {e : Env D} (n : Nat) {it : It D C} {m t : Nat} (hl : LogOk clog e.log it.committed)
    (hq : Q clog e.log it m t) (hn : it.committed - m ≤ n) :
    ∃ m', Q clog e.log (loop e n it).1 m' (t + rolled (loop e n it).2) ∧ m ≤ m' ∧
      told (loop e n it).2 = expect clog it.doneAt m m' ∧
      ((loop e n it).1.err = false → m' = it.committed) ∧
      (loop e n it).1.dones = it.dones ∧ (loop e n it).1.first = it.first ∧ (loop e n it).1.committed = it.committed := by
  induction n generalizing it m t with
  | zero =>
    refine ⟨m, by simpa [loop, rolled] using hq, Nat.le_refl _, by rw [expect_self]; rfl, ?_, rfl, rfl, rfl⟩
    have := hq.le
    intro _; omega
  | succ n ih =>
    unfold loop
    cases hg : it.good with
    | false =>
      rw [if_neg (by simp)]
      refine ⟨m, by simpa [rolled] using hq, Nat.le_refl _, by rw [expect_self]; rfl, ?_, rfl, rfl, rfl⟩
      intro he
      unfold It.good at hg
      have he' : it.err = false := he
      rw [he'] at hg
      simp only [Bool.not_false, Bool.and_true, decide_eq_false_iff_not] at hg
      have h1 := hq.cur
      have h2 := hq.le
      have ht : t = 0 := by
        by_cases h0 : 0 < t
        · rw [hq.roll h0] at he'; cases he'
        · omega
      omega
    | true =>
      rw [if_pos rfl]
      dsimp only
      have herr : it.err = false := by
        unfold It.good at hg; simp at hg; exact hg.2
      have ht : t = 0 := by
        by_cases h0 : 0 < t
        · rw [hq.roll h0] at herr; cases herr
        · omega
      subst ht
      obtain ⟨m1, hq1, hm1, hs1, b1, b2, b3⟩ := body_spec hl hq hg
      obtain ⟨m2, hq2, hm2, hs2, he2, l1, l2, l3⟩ := ih (it := (body e it).1) (by rw [b3]; exact hl) hq1 (by rw [b3]; omega)
      refine ⟨m2, ?_, by omega, ?_, ?_, by rw [l1, b1], by rw [l2, b2], by rw [l3, b3]⟩
      · rw [rolled_append, Nat.zero_add]; exact hq2
      · rw [told_append, hs1, hs2, doneAt_congr b1 b2, expect_append _ _ (by omega) hm2]
      · intro h; rw [he2 h, b3]

/-! ### Kinds of events -/

/-- Events of a do_committed without error. -/
def Ev.plain : Ev D C → Bool
  | .apply _ _ _ => true
  | .rollback _ => true
  | .confCommitted _ => true
  | .ran _ => true
  | _ => false

theorem shows_plain (it : It D C) : ∀ e ∈ it.shows, e.plain = true := by
  unfold It.shows
  split
  · intro e he; rw [List.mem_singleton] at he; subst he; rfl
  · intro e he; cases he

theorem user_plain (log : Nat → Option (Entry D)) (us : List UOp) (it : It D C) : ∀ e ∈ (user log it us).2, e.plain = true := by
  induction us generalizing it with
  | nil => intro e he; cases he
  | cons u us ih =>
    cases u with
    | next =>
      unfold user
      cases it.data? with
      | none => exact ih it
      | some d =>
        dsimp only
        intro e he
        rcases List.mem_append.mp he with he | he
        · exact shows_plain _ e he
        · exact ih _ e he
    | rollback n =>
      unfold user
      dsimp only
      intro e he
      rcases List.mem_cons.mp he with he | he
      · subst he; rfl
      · exact ih _ e he

theorem body_plain (e : Env D) (it : It D C) : ∀ x ∈ (body e it).2, x.plain = true := by
  unfold body
  split
  · dsimp only
    intro x hx
    rcases List.mem_append.mp hx with hx | hx
    · exact shows_plain _ x hx
    · exact user_plain _ _ _ x hx
  · dsimp only
    intro x hx
    rcases List.mem_append.mp hx with hx | hx
    · split at hx
      · rw [List.mem_singleton] at hx; subst hx; rfl
      · cases hx
    · split at hx
      · rw [List.mem_singleton] at hx; subst hx; rfl
      · cases hx

theorem loop_plain (e : Env D) (n : Nat) (it : It D C) : ∀ x ∈ (loop e n it).2, x.plain = true := by
  induction n generalizing it with
  | zero => intro x hx; cases hx
  | succ n ih =>
    unfold loop
    split
    · dsimp only
      intro x hx
      rcases List.mem_append.mp hx with hx | hx
      · exact body_plain _ _ x hx
      · exact ih _ x hx
    · intro x hx; cases hx

/-! ### Closures -/

theorem filterMap_congr' {α β : Type} {f g : α → Option β} {l : List α} (h : ∀ x ∈ l, f x = g x) :
    l.filterMap f = l.filterMap g := by
  induction l with
  | nil => rfl
  | cons a l ih =>
    rw [List.filterMap_cons, List.filterMap_cons, h a (List.mem_cons_self ..), ih (fun x hx => h x (List.mem_cons_of_mem _ hx))]


/-- The closure registered for index `i`. -/
def closureAt (q : ClosureQueue C) (i : Nat) : Option C :=
  if i < q.first then none else (q.queue[i - q.first]?).join

theorem pop_closureAt {q : ClosureQueue C} {c : Nat} (h : (q.popUntil c).2.rc = 0) {it : It D C}
    (h1 : it.dones = (q.popUntil c).2.out) (h2 : it.first = (q.popUntil c).2.outFirst) {i : Nat} (hi : i ≤ c) :
    it.doneAt i = closureAt q i := by
  unfold It.doneAt closureAt
  rw [h1, h2]
  unfold ClosureQueue.popUntil at h ⊢
  split
  · rename_i h'
    dsimp only
    rw [if_pos (by omega)]
    simp only [Bool.or_eq_true, List.isEmpty_iff, decide_eq_true_eq] at h'
    rcases h' with h' | h'
    · rw [h']; simp
    · rw [if_pos (by omega)]
  · rename_i h'
    split
    · rename_i h''
      rw [if_neg h', if_pos h''] at h
      simp at h
    · dsimp only
      by_cases hf : i < q.first
      · rw [if_pos hf, if_pos hf]
      · rw [if_neg hf, if_neg hf, List.getElem?_take_of_lt (by omega)]

theorem dataOf_congr {clog : Nat → Entry D} {cl cl' : Nat → Option C} {a b : Nat} (h : ∀ i, i ≤ b → cl i = cl' i) :
    dataOf clog cl a b = dataOf clog cl' a b := by
  unfold dataOf
  apply filterMap_congr'
  intro i hi
  have := List.mem_range'_1.mp hi
  rw [h i (by omega)]

/-- The closures of the indexes from `k` to `c`. -/
def closuresFrom (q : ClosureQueue C) (k c : Nat) : List C := (List.range' k (c + 1 - k)).filterMap (closureAt q)

theorem rest_eq {q : ClosureQueue C} {it : It D C} (h : (q.popUntil it.committed).2.rc = 0)
    (h1 : it.dones = (q.popUntil it.committed).2.out) (h2 : it.first = (q.popUntil it.committed).2.outFirst) :
    it.rest = closuresFrom q it.cur it.committed := by
  have hdone : ∀ i, i ≤ it.committed → it.doneAt i = closureAt q i := fun i hi => pop_closureAt h h1 h2 hi
  unfold It.rest closuresFrom
  by_cases hm : it.cur ≥ it.first
  · rw [Nat.max_eq_left hm]
    apply filterMap_congr'
    intro i hi
    have := List.mem_range'_1.mp hi
    exact hdone i (by omega)
  · rw [Nat.max_eq_right (by omega)]
    -- the indexes below the first closure have none
    by_cases hc : it.first ≤ it.committed + 1
    · have hsplit : List.range' it.cur (it.committed + 1 - it.cur) =
          List.range' it.cur (it.first - it.cur) ++ List.range' it.first (it.committed + 1 - it.first) := by
        have := List.range'_append (s := it.cur) (m := it.first - it.cur) (n := it.committed + 1 - it.first) (step := 1)
        rw [show it.cur + 1 * (it.first - it.cur) = it.first by omega] at this
        rw [this]; congr 1; omega
      rw [hsplit, List.filterMap_append]
      have hnil : (List.range' it.cur (it.first - it.cur)).filterMap (closureAt q) = [] := by
        apply List.filterMap_eq_nil_iff.mpr
        intro i hi
        have := List.mem_range'_1.mp hi
        rw [← hdone i (by omega)]
        unfold It.doneAt
        rw [if_pos (by omega)]
      rw [hnil, List.nil_append]
      apply filterMap_congr'
      intro i hi
      have := List.mem_range'_1.mp hi
      exact hdone i (by omega)
    · rw [show it.committed + 1 - it.first = 0 by omega]
      symm
      simp only [List.range'_zero, List.filterMap_nil]
      apply List.filterMap_eq_nil_iff.mpr
      intro i hi
      have := List.mem_range'_1.mp hi
      rw [← hdone i (by omega)]
      unfold It.doneAt
      rw [if_pos (by omega)]

/-! ### do_committed -/

/-- What the log manager and the closure queue do during a do_committed(c): the entries of the committed log
or failures, the terms of the committed log, and a pop in range (C12). -/
structure EnvOk (clog : Nat → Entry D) (e : Env D) (q : ClosureQueue C) (c : Nat) : Prop where
  log : LogOk clog e.log c
  term : ∀ i, 1 ≤ i → i ≤ c → e.term i = (clog i).term
  pop : (q.popUntil c).2.rc = 0

/-- do_committed in one piece. -/
theorem doCommitted_spec {clog : Nat → Entry D} {e : Env D} {s : State D C} {c : Nat} (he : s.err = false)
    (hc : s.applied < c) (hok : EnvOk clog e s.cq c) :
    ∃ evs m, ((∀ x ∈ evs, x.plain = true) ∧ told evs = expect clog (closureAt s.cq) s.applied m) ∧ s.applied ≤ m ∧ m ≤ c ∧
      seen evs = dataOf clog (closureAt s.cq) s.applied m ∧
      (s.doCommitted e c).applied = c ∧ (s.doCommitted e c).pend = s.pend ∧ (s.doCommitted e c).counter = s.counter ∧
      (s.doCommitted e c).cq = (s.cq.popUntil c).1 ∧
      (((s.doCommitted e c).err = false ∧ m = c ∧ (s.doCommitted e c).ev = s.ev ++ evs ∧
          (s.doCommitted e c).term = (clog c).term ∧ rolled evs = 0 ∧
          (s.doCommitted e c).setApplied = s.setApplied ++ [(c, (clog c).term)]) ∨
       ((s.doCommitted e c).err = true ∧
          (s.doCommitted e c).ev = s.ev ++ evs ++ [.onError] ++ (closuresFrom s.cq (m + 1 - rolled evs) c).map .failed ∧
          (0 < rolled evs → DataAt clog m) ∧ (rolled evs = 0 → m < c ∧ e.log (m + 1) = none) ∧
          (s.doCommitted e c).setApplied = s.setApplied ++ [(m - rolled evs, e.term (m - rolled evs))])) := by
  obtain ⟨hq, q1, q2, q3⟩ := start_Q (s.cq.popUntil c).2.out (s.cq.popUntil c).2.outFirst s.applied c hok.log (by omega)
  obtain ⟨m, hq2, hm, hseen, hend, l1, l2, l3⟩ := loop_spec (e := e) (c + 1 - s.applied) (by rw [q3]; exact hok.log) hq (by rw [q3]; omega)
  have hpl := loop_plain e (c + 1 - s.applied) (It.start e.log (s.cq.popUntil c).2.out (s.cq.popUntil c).2.outFirst s.applied c)
  have hst : s.doCommitted e c =
      (let r := loop e (c + 1 - s.applied) (It.start e.log (s.cq.popUntil c).2.out (s.cq.popUntil c).2.outFirst s.applied c)
       let s1 := { s with cq := (s.cq.popUntil c).1, ev := s.ev ++ r.2 }
       let s2 := if r.1.err then { s1.setError with ev := s1.setError.ev ++ r.1.rest.map .failed } else s1
       { s2 with applied := c, term := e.term (r.1.cur - 1),
                 setApplied := s2.setApplied ++ [(r.1.cur - 1, e.term (r.1.cur - 1))] }) := by
    unfold State.doCommitted
    rw [if_neg (by rw [he]; simp), if_neg (by omega)]
  have hd : ∀ i, i ≤ c → (It.start e.log (s.cq.popUntil c).2.out (s.cq.popUntil c).2.outFirst s.applied c).doneAt i = closureAt s.cq i :=
    fun i hi => pop_closureAt hok.pop q1 q2 hi
  have hrest : ∀ it : It D C, it.committed = c → it.dones = (s.cq.popUntil c).2.out → it.first = (s.cq.popUntil c).2.outFirst →
      it.rest = closuresFrom s.cq it.cur c := by
    intro it h0 h1 h2
    subst h0
    exact rest_eq hok.pop h1 h2
  rw [q1] at l1; rw [q2] at l2; rw [q3] at l3
  rw [Nat.zero_add] at hq2
  generalize loop e (c + 1 - s.applied) (It.start e.log (s.cq.popUntil c).2.out (s.cq.popUntil c).2.outFirst s.applied c) = r at *
  have hmc : m ≤ c := by have := hq2.le; rw [l3] at this; exact this
  rw [hst]
  dsimp only
  have htold : told r.2 = expect clog (closureAt s.cq) s.applied m := by
    rw [hseen]; exact expect_congr (fun i hi => hd i (by omega))
  refine ⟨r.2, m, ⟨hpl, htold⟩, hm, hmc, ?_, rfl, ?_, ?_, ?_, ?_⟩
  · rw [← seen_told, htold, seen_expect]
  · cases hr : r.1.err <;> simp [State.setError, he]
  · cases hr : r.1.err <;> simp [State.setError, he]
  · cases hr : r.1.err <;> simp [State.setError, he]
  · cases hr : r.1.err with
    | false =>
      left
      have hmeq : m = c := by rw [hend hr, q3]
      have hr0 : rolled r.2 = 0 := by
        by_cases h0 : 0 < rolled r.2
        · have := hq2.roll h0; rw [hr] at this; cases this
        · omega
      have hcur : r.1.cur - 1 = c := by have := hq2.cur; omega
      rw [hcur, hok.term c (by omega) (Nat.le_refl _)]
      rw [if_neg (by simp)]
      exact ⟨he, hmeq, rfl, rfl, hr0, rfl⟩
    | true =>
      right
      have hcur := hq2.cur
      have hlast : r.1.cur - 1 = m - rolled r.2 := by omega
      rw [hlast, hrest r.1 l3 l1 l2, hcur]
      have hse : ∀ x : State D C, x.err = false → x.setError = { x with err := true, ev := x.ev ++ [.onError] } := by
        intro x hx; unfold State.setError; rw [if_neg (by rw [hx]; simp)]
      rw [if_pos rfl, hse { s with cq := (s.cq.popUntil c).1, ev := s.ev ++ r.2 } he]
      refine ⟨rfl, rfl, hq2.dat, ?_, rfl⟩
      intro h0
      obtain ⟨f1, f2⟩ := hq2.fail hr h0
      rw [l3] at f2
      exact ⟨f2, f1⟩

end Braft.Fsm
