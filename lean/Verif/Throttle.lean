/-!
# ThroughputSnapshotThrottle

Model of src/braft/snapshot_throttle.cpp:39-126 and snapshot_throttle.h:78-82. Times and byte
counts are `Nat`; calls are linearised by `_mutex`. `limit` is `limit_per_cycle`, `L` the length of
a cycle in microseconds (`1000*1000/_check_cycle`), both constant over a run (the code recomputes
`limit` from a flag at every call).
-/
set_option linter.unusedVariables false
namespace Braft.Throttle

structure Throttle where
  cur : Nat          -- _cur_throughput_bytes
  last : Nat         -- _last_throughput_check_time_us
  tasks : Nat := 0   -- _snapshot_task_num
deriving DecidableEq, Repr

/-- snapshot_throttle.h:78-82 `caculate_check_time_us`. -/
def align (L now : Nat) : Nat := now / L * L

/-- snapshot_throttle.cpp:39-47, constructor. -/
def mk0 (L now : Nat) : Throttle := ⟨0, align L now, 0⟩

/-- snapshot_throttle.cpp:51-80 `throttled_by_throughput`: new state and bytes granted. -/
def acquire (L limit : Nat) (t : Throttle) (now bytes : Nat) : Throttle × Nat :=
  if t.cur + bytes > limit then
    if now - t.last ≤ L then
      ({ t with cur := limit }, if limit > t.cur then limit - t.cur else 0)
    else
      let a := if bytes > limit then limit else bytes
      ({ t with cur := a, last := align L now }, a)
  else ({ t with cur := t.cur + bytes }, bytes)

/-- snapshot_throttle.cpp:117-126 `return_unused_throughput`. `start` is `now - elaspe_time_us`. -/
def giveBack (t : Throttle) (start acquired consumed : Nat) : Throttle :=
  if start < t.last then t else { t with cur := t.cur - (acquired - consumed) }

/-- snapshot_throttle.cpp:82-101 `add_one_more_task`. -/
def addTask (maxTasks : Nat) (t : Throttle) (isLeader : Bool) : Throttle × Bool :=
  if isLeader then (t, true)
  else if t.tasks ≥ maxTasks then (t, false)
  else ({ t with tasks := t.tasks + 1 }, true)

/-- snapshot_throttle.cpp:103-115 `finish_one_task`; the CHECK_GE only logs, on `Nat` the count
stays at 0. -/
def finishTask (t : Throttle) (isLeader : Bool) : Throttle :=
  if isLeader then t else { t with tasks := t.tasks - 1 }

/-! ## Lemmas -/

theorem acquire_le_bytes (L limit : Nat) (t : Throttle) (now bytes : Nat) :
    (acquire L limit t now bytes).2 ≤ bytes := by
  unfold acquire
  split
  · split
    · simp only; split <;> omega
    · simp only; split <;> omega
  · simp

/-- A run of `throttled_by_throughput` calls `(time, bytes)`; returns the grants `(time, granted)`. -/
def runAcquire (L limit : Nat) (t : Throttle) : List (Nat × Nat) → List (Nat × Nat) × Throttle
  | [] => ([], t)
  | (now, b) :: rest =>
    let r := acquire L limit t now b
    let r' := runAcquire L limit r.1 rest
    ((now, r.2) :: r'.1, r'.2)

/-- Bytes granted in the window `[k*L, (k+1)*L)`. -/
def inWindow (L k : Nat) (gs : List (Nat × Nat)) : Nat :=
  (gs.filter (fun g => decide (g.1 / L = k))).foldr (fun g s => g.2 + s) 0

theorem inWindow_cons (L k : Nat) (g : Nat × Nat) (gs) :
    inWindow L k (g :: gs) = (if g.1 / L = k then g.2 else 0) + inWindow L k gs := by
  unfold inWindow
  by_cases h : g.1 / L = k <;> simp [h]

theorem acquire_cases (L limit : Nat) (t : Throttle) (now b : Nat) (hc : t.cur ≤ limit) :
    (∃ c', t.cur ≤ c' ∧ c' ≤ limit ∧
      acquire L limit t now b = ({ t with cur := c' }, c' - t.cur)) ∨
    (∃ a, a ≤ limit ∧ t.last + L < now ∧
      acquire L limit t now b = ({ t with cur := a, last := align L now }, a)) := by
  unfold acquire
  by_cases h1 : t.cur + b > limit
  · rw [if_pos h1]
    by_cases h2 : now - t.last ≤ L
    · rw [if_pos h2]
      refine .inl ⟨limit, hc, Nat.le_refl _, ?_⟩
      by_cases h3 : limit > t.cur
      · rw [if_pos h3]
      · rw [if_neg h3]; congr 1; omega
    · rw [if_neg h2]
      exact .inr ⟨_, by split <;> omega, by omega, rfl⟩
  · rw [if_neg h1]
    exact .inl ⟨t.cur + b, by omega, by omega, by congr 1; omega⟩

/-- Bound for a window that has begun: all calls are at or after its start. -/
theorem window_bound_begun (L limit : Nat) (hL : 0 < L) (k : Nat) (calls : List (Nat × Nat))
    (t : Throttle) (hc : t.cur ≤ limit) (hal : ∃ j, t.last = j * L)
    (htime : ∀ c ∈ calls, t.last ≤ c.1) (hbegun : ∀ c ∈ calls, k * L ≤ c.1)
    (hsort : calls.Pairwise (fun a b => a.1 ≤ b.1)) :
    inWindow L k (runAcquire L limit t calls).1 ≤
      (if t.last < k * L then (limit - t.cur) + limit
       else if t.last = k * L then limit - t.cur else 0) := by
  induction calls generalizing t with
  | nil => simp [runAcquire, inWindow]
  | cons c rest ih =>
    obtain ⟨now, b⟩ := c
    obtain ⟨j, hj⟩ := hal
    rw [List.pairwise_cons] at hsort
    have hnow : t.last ≤ now := htime (now, b) List.mem_cons_self
    have hkn : k * L ≤ now := hbegun (now, b) List.mem_cons_self
    have hd : now / L * L ≤ now := Nat.div_mul_le_self now L
    have hd2 : now < (now / L + 1) * L := by
      have := Nat.lt_div_mul_add (a := now) hL
      rw [Nat.add_mul]; omega
    have hkm : ∀ a b : Nat, a * L ≤ b * L ↔ a ≤ b := fun a b => Nat.mul_le_mul_right_iff hL
    have hkl : ∀ a b : Nat, a * L < b * L ↔ a < b := fun a b => Nat.mul_lt_mul_right hL
    have hjle : j ≤ now / L := by rw [Nat.le_div_iff_mul_le hL]; omega
    have hkle : k ≤ now / L := by rw [Nat.le_div_iff_mul_le hL]; omega
    simp only [runAcquire]
    rw [inWindow_cons]
    simp only
    rcases acquire_cases L limit t now b hc with ⟨c', h1, h2, he⟩ | ⟨a, h1, h2, he⟩
    · rw [he]
      have h := ih { t with cur := c' } h2 ⟨j, hj⟩
          (fun c hc => htime c (List.mem_cons_of_mem _ hc))
          (fun c hc => hbegun c (List.mem_cons_of_mem _ hc)) hsort.2
      simp only at h ⊢
      by_cases hk : now / L = k
      · rw [if_pos hk]
        have hle : t.last ≤ k * L := by rw [hj, hkm]; omega
        by_cases hlt : t.last < k * L
        · rw [if_pos hlt] at h ⊢; omega
        · have heq : t.last = k * L := by omega
          rw [if_neg hlt, if_pos heq] at h ⊢; omega
      · rw [if_neg hk]
        by_cases hlt : t.last < k * L
        · rw [if_pos hlt] at h ⊢; omega
        · rw [if_neg hlt] at h ⊢
          by_cases heq : t.last = k * L
          · rw [if_pos heq] at h ⊢; omega
          · rw [if_neg heq] at h ⊢; omega
    · rw [he]
      have hjlt : j < now / L := by
        have : (j + 1) * L < (now / L + 1) * L := by rw [Nat.add_mul]; omega
        rw [hkl] at this; omega
      have h := ih { t with cur := a, last := align L now } h1 ⟨now / L, rfl⟩
          (fun c hc => by
            have := hsort.1 c hc
            simp only [align]; simp only at this; omega)
          (fun c hc => hbegun c (List.mem_cons_of_mem _ hc)) hsort.2
      have hal : align L now = now / L * L := rfl
      simp only at h ⊢
      have hge : ¬ align L now < k * L := by rw [hal, hkl]; omega
      rw [if_neg hge] at h
      by_cases hk : now / L = k
      · rw [if_pos hk]
        have hlt : t.last < k * L := by rw [hj, hkl]; omega
        rw [if_pos (by rw [hal, hk])] at h
        rw [if_pos hlt]; omega
      · rw [if_neg hk]
        have hne : ¬ align L now = k * L := by
          intro he; have : now / L ≤ k := by rw [← hkm]; omega
          omega
        rw [if_neg hne] at h
        omega

theorem window_bound (L limit : Nat) (hL : 0 < L) (k : Nat) (calls : List (Nat × Nat)) (t : Throttle)
    (hc : t.cur ≤ limit) (hal : ∃ j, t.last = j * L)
    (htime : ∀ c ∈ calls, t.last ≤ c.1) (hsort : calls.Pairwise (fun a b => a.1 ≤ b.1)) :
    inWindow L k (runAcquire L limit t calls).1 ≤ 2 * limit := by
  induction calls generalizing t with
  | nil => simp [runAcquire, inWindow]
  | cons c rest ih =>
    have hsort' := hsort
    rw [List.pairwise_cons] at hsort
    by_cases hb : k * L ≤ c.1
    · have := window_bound_begun L limit hL k (c :: rest) t hc hal htime (by
        intro d hd
        rcases List.mem_cons.mp hd with rfl | hd
        · exact hb
        · exact Nat.le_trans hb (hsort.1 d hd)) hsort'
      split at this
      · omega
      · split at this <;> omega
    · obtain ⟨now, b⟩ := c
      have hnow : t.last ≤ now := htime (now, b) List.mem_cons_self
      simp only at hb
      have hlt : now / L < k := by rw [Nat.div_lt_iff_lt_mul hL]; omega
      simp only [runAcquire]
      rw [inWindow_cons, if_neg (by simp only; omega)]
      rcases acquire_cases L limit t now b hc with ⟨c', h1, h2, he⟩ | ⟨a, h1, h2, he⟩
      · rw [he]
        have := ih { t with cur := c' } h2 hal (fun c hc => htime c (List.mem_cons_of_mem _ hc)) hsort.2
        simp only at this ⊢; omega
      · rw [he]
        have hd : now / L * L ≤ now := Nat.div_mul_le_self now L
        have := ih { t with cur := a, last := align L now } h1 ⟨now / L, rfl⟩
          (fun c hc => by
            have := hsort.1 c hc
            simp only [align]; simp only at this; omega) hsort.2
        simp only at this ⊢; omega

end Braft.Throttle
