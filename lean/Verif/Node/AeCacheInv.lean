import Verif.Node.AeCache

/- Invariants of the AppendEntries cache. -/
set_option linter.unusedSectionVars false
set_option linter.unusedSimpArgs false
set_option linter.unusedVariables false

namespace Braft.AeCache

/-- The map is ordered, its requests do not overlap and are not empty. -/
structure Sorted (m : List Rpc) : Prop where
  pw : m.Pairwise (fun a b => a.last ≤ b.prev)
  pos : ∀ r ∈ m, 0 < r.n

theorem Sorted.nil : Sorted [] := ⟨.nil, fun _ h => by cases h⟩

theorem Sorted.sub {m m' : List Rpc} (h : Sorted m) (hs : m'.Sublist m) : Sorted m' :=
  ⟨h.pw.sublist hs, fun r hr => h.pos r (hs.subset hr)⟩

theorem Sorted.prevLt {m : List Rpc} (h : Sorted m) : m.Pairwise (fun a b => a.prev < b.prev) := by
  refine (h.pw.imp_of_mem ?_)
  intro a b ha hb hab
  have := h.pos a ha
  unfold Rpc.last at hab; omega

theorem takeWhile_lt {m : List Rpc} {k : Int} {x : Rpc}
    (hx : x ∈ m.takeWhile (fun x => decide (x.prev < k))) : x.prev < k := by
  induction m with
  | nil => cases hx
  | cons a m ih =>
    rw [List.takeWhile_cons] at hx
    split at hx
    · rename_i h
      rcases List.mem_cons.mp hx with rfl | hx
      · exact of_decide_eq_true h
      · exact ih hx
    · cases hx

theorem dropWhile_ge {m : List Rpc} {k : Int} (hs : m.Pairwise (fun a b => a.prev < b.prev)) {x : Rpc}
    (hx : x ∈ m.dropWhile (fun x => decide (x.prev < k))) : k ≤ x.prev := by
  induction m with
  | nil => cases hx
  | cons a m ih =>
    rw [List.dropWhile_cons] at hx
    split at hx
    · exact ih (List.pairwise_cons.mp hs).2 hx
    · rename_i h
      have ha : ¬ a.prev < k := by simpa using h
      rcases List.mem_cons.mp hx with rfl | hx
      · omega
      · have := (List.pairwise_cons.mp hs).1 x hx; omega

theorem pw_last {l : List Rpc} (h : l.Pairwise (fun a b => a.last ≤ b.prev)) (hp : ∀ r ∈ l, 0 < r.n)
    {p : Rpc} (hp' : l.getLast? = some p) : ∀ a ∈ l, a.last ≤ p.last := by
  intro a ha
  obtain ⟨ys, rfl⟩ := List.getLast?_eq_some_iff.mp hp'
  rcases List.mem_append.mp ha with ha | ha
  · have := (List.pairwise_append.mp h).2.2 a ha p (by simp)
    have := hp p (by simp)
    unfold Rpc.last at *; omega
  · simp at ha; subst ha; omega

/-- What is inserted when nothing overlaps keeps the order. -/
theorem insert_sorted {m : List Rpc} {r : Rpc} (h : Sorted m) (hn : needClear m r = false) (hr : 0 < r.n) :
    Sorted (insert m r) ∧ insert m r =
      m.takeWhile (fun x => decide (x.prev < r.prev)) ++ r :: m.dropWhile (fun x => decide (x.prev < r.prev)) := by
  have hsplit := List.takeWhile_append_dropWhile (p := fun x : Rpc => decide (x.prev < r.prev)) (l := m)
  have hlt := h.prevLt
  unfold needClear at hn
  rw [Bool.or_eq_false_iff] at hn
  obtain ⟨h1, h2⟩ := hn
  have hdge := fun x hx => dropWhile_ge (m := m) (k := r.prev) hlt (x := x) hx
  have htlt := fun x hx => takeWhile_lt (m := m) (k := r.prev) (x := x) hx
  unfold insert
  generalize hA : m.takeWhile (fun x => decide (x.prev < r.prev)) = A at *
  generalize hB : m.dropWhile (fun x => decide (x.prev < r.prev)) = B at *
  have hm := h.pw
  rw [← hsplit] at hm
  obtain ⟨pA, pB, pAB⟩ := List.pairwise_append.mp hm
  have hposA : ∀ x ∈ A, 0 < x.n := fun x hx => h.pos x (by rw [← hsplit]; exact List.mem_append_left _ hx)
  have hposB : ∀ x ∈ B, 0 < x.n := fun x hx => h.pos x (by rw [← hsplit]; exact List.mem_append_right _ hx)
  have hA' : ∀ a ∈ A, a.last ≤ r.prev := by
    intro a ha
    cases hl : A.getLast? with
    | none => rw [List.getLast?_eq_none_iff] at hl; subst hl; cases ha
    | some p =>
      rw [hl] at h1
      have h1' : p.last ≤ r.prev := by unfold Rpc.last; simp at h1; omega
      have := pw_last pA hposA hl a ha
      omega
  have hB' : ∀ b ∈ B, r.last ≤ b.prev := by
    intro b hb
    cases B with
    | nil => cases hb
    | cons q B =>
      simp only [List.head?_cons] at h2
      have h2' : r.last ≤ q.prev := by unfold Rpc.last; simp at h2; omega
      rcases List.mem_cons.mp hb with rfl | hb
      · exact h2'
      · have := (List.pairwise_cons.mp pB).1 b hb
        have := hposB q (by simp)
        unfold Rpc.last at *; omega
  have hno : m.any (fun x => decide (x.prev = r.prev)) = false := by
    rw [List.any_eq_false]
    intro x hx
    have : x.prev ≠ r.prev := by
      rw [← hsplit] at hx
      rcases List.mem_append.mp hx with hx | hx
      · have := htlt x hx; omega
      · have := hB' x hx; unfold Rpc.last at this; omega
    simpa using this
  rw [if_neg (by rw [hno]; decide)]
  refine ⟨⟨?_, ?_⟩, rfl⟩
  · rw [List.pairwise_append]
    refine ⟨pA, List.pairwise_cons.mpr ⟨hB', pB⟩, ?_⟩
    intro a ha b hb
    rcases List.mem_cons.mp hb with rfl | hb
    · exact hA' a ha
    · exact pAB a ha b hb
  · intro x hx
    rcases List.mem_append.mp hx with hx | hx
    · exact hposA x hx
    · rcases List.mem_cons.mp hx with rfl | hx
      · exact hr
      · exact hposB x hx

theorem insert_perm {m : List Rpc} {r : Rpc}
    (h : insert m r = m.takeWhile (fun x => decide (x.prev < r.prev)) ++ r :: m.dropWhile (fun x => decide (x.prev < r.prev))) :
    (insert m r).Perm (r :: m) := by
  rw [h]
  refine List.perm_middle.trans ?_
  rw [List.takeWhile_append_dropWhile]

theorem insert_nil (r : Rpc) : insert [] r = [r] := rfl

/-- What process_runable_rpcs takes. -/
theorem runable_append (L : Int) (m : List Rpc) : (runable L m).1 ++ (runable L m).2 = m := by
  induction m generalizing L with
  | nil => rfl
  | cons r m ih =>
    unfold runable
    by_cases h : r.prev > L
    · rw [if_pos h]; rfl
    · rw [if_neg h]; simp [ih]

/-- The ids of a list. -/
def ids (l : List Rpc) : List Nat := l.map Rpc.id

theorem without_perm {q m a b : List Rpc} (hq : q.Perm m) (hm : m.Perm (a ++ b)) (hn : (ids m).Nodup) :
    (without q a).Perm b := by
  have h1 : (without q a).Perm ((a ++ b).filter (fun r => !a.any (fun x => decide (x.id = r.id)))) :=
    (hq.trans hm).filter _
  have hn' : (ids (a ++ b)).Nodup := (hm.map Rpc.id).nodup_iff.mp hn
  have h2 : (a ++ b).filter (fun r => !a.any (fun x => decide (x.id = r.id))) = b := by
    rw [List.filter_append]
    have ha : a.filter (fun r => !a.any (fun x => decide (x.id = r.id))) = [] := by
      rw [List.filter_eq_nil_iff]
      intro x hx
      simp only [Bool.not_eq_true, Bool.not_eq_false', List.any_eq_true]
      exact ⟨x, hx, by simp⟩
    have hb : b.filter (fun r => !a.any (fun x => decide (x.id = r.id))) = b := by
      rw [List.filter_eq_self]
      intro x hx
      simp only [Bool.not_eq_true', List.any_eq_false]
      intro y hy
      unfold ids at hn'
      rw [List.map_append, List.nodup_append] at hn'
      have := hn'.2.2 y.id (List.mem_map_of_mem hy) x.id (List.mem_map_of_mem hx)
      simpa using this
    rw [ha, hb]; rfl
  rw [h2] at h1; exact h1

theorem without_sublist (q a : List Rpc) : (without q a).Sublist q := List.filter_sublist

/-- The oldest request of `q`, if it is still in a sublist, is its oldest one. -/
theorem head_of_sublist {q q' : List Rpc} (hs : q'.Sublist q) (hn : (ids q).Nodup) {h r : Rpc}
    (hh : q.head? = some h) (hr : r ∈ q') (hid : r.id = h.id) : q'.head? = some r := by
  cases q with
  | nil => cases hh
  | cons x q =>
    simp at hh; subst hh
    unfold ids at hn; rw [List.map_cons, List.nodup_cons] at hn
    cases hs with
    | cons _ hs =>
      exact absurd (by rw [← hid]; exact List.mem_map_of_mem (hs.subset hr)) hn.1
    | cons_cons _ hs =>
      rcases List.mem_cons.mp hr with rfl | hr
      · rfl
      · exact absurd (by rw [← hid]; exact List.mem_map_of_mem (hs.subset hr)) hn.1

/-- Cache and environment. `all` are the requests cached so far. -/
structure CInv (max : Nat) (c : Cache) (e : Env) (all : List Rpc) : Prop where
  sorted : Sorted c.map
  perm : c.queue.Perm c.map
  size : c.map.length ≤ max
  cons : (c.queue ++ e.out.flatten).Perm all
  live : c.map ≠ [] → ∃ t ∈ e.timers, t.cacheVer = c.ver ∧ t.timerVer = c.timerVer
  head : ∀ t ∈ e.timers, ∀ r ∈ c.queue, r.id = t.head → c.queue.head? = some r ∧ t.start = r.recv

/-- The environment alone. -/
structure EInv (e : Env) (all : List Rpc) : Prop where
  ids : ids all = List.range all.length
  heads : ∀ t ∈ e.timers, ∃ r ∈ all, r.id = t.head ∧ r.recv = t.start
  tids : ∀ t ∈ e.timers, t.id < e.nextT
  tnodup : (e.timers.map (·.id)).Nodup

theorem EInv.nodup {e : Env} {all : List Rpc} (h : EInv e all) : (AeCache.ids all).Nodup := by
  rw [h.ids]; exact List.nodup_range

theorem id_inj {all : List Rpc} (hn : (ids all).Nodup) {a b : Rpc} (ha : a ∈ all) (hb : b ∈ all)
    (h : a.id = b.id) : a = b := by
  induction all with
  | nil => cases ha
  | cons x all ih =>
    unfold ids at hn; rw [List.map_cons, List.nodup_cons] at hn
    rcases List.mem_cons.mp ha with ha1 | ha1
    · rcases List.mem_cons.mp hb with hb1 | hb1
      · rw [ha1, hb1]
      · subst ha1; exact absurd (by rw [h]; exact List.mem_map_of_mem hb1) hn.1
    · rcases List.mem_cons.mp hb with hb1 | hb1
      · subst hb1; exact absurd (by rw [← h]; exact List.mem_map_of_mem ha1) hn.1
      · exact ih hn.2 ha1 hb1

theorem CInv.qmem {max : Nat} {c : Cache} {e : Env} {all : List Rpc} (h : CInv max c e all) {r : Rpc}
    (hr : r ∈ c.queue) : r ∈ all := h.cons.mem_iff.mp (List.mem_append_left _ hr)

theorem CInv.qnodup {max : Nat} {c : Cache} {e : Env} {all : List Rpc} (h : CInv max c e all) (he : EInv e all) :
    (ids c.queue).Nodup := by
  have : (ids (c.queue ++ e.out.flatten)).Nodup := (h.cons.map Rpc.id).nodup_iff.mpr he.nodup
  unfold ids at this ⊢
  rw [List.map_append] at this
  exact (List.nodup_append.mp this).1

theorem EInv.filter {e : Env} {all : List Rpc} (h : EInv e all) (p : Timer → Bool) (o : List (List Rpc)) :
    EInv { e with timers := e.timers.filter p, out := o } all :=
  ⟨h.ids, fun t ht => h.heads t (List.mem_filter.mp ht).1, fun t ht => h.tids t (List.mem_filter.mp ht).1,
    h.tnodup.sublist (List.filter_sublist.map _)⟩

/-- stop_timer only removes timers. -/
theorem stopTimer_spec (c : Cache) (e : Env) (del : Bool) :
    (stopTimer c e del).1.map = c.map ∧ (stopTimer c e del).1.queue = c.queue ∧
    (stopTimer c e del).1.ver = c.ver ∧ (stopTimer c e del).2.out = e.out ∧
    (stopTimer c e del).2.nextT = e.nextT ∧ (stopTimer c e del).2.failed = e.failed ∧
    ∃ p : Timer → Bool, (stopTimer c e del).2.timers = e.timers.filter p := by
  unfold stopTimer
  cases c.timer with
  | none => exact ⟨rfl, rfl, rfl, rfl, rfl, rfl, fun _ => true, (List.filter_eq_self.mpr (fun _ _ => rfl)).symm⟩
  | some t =>
    cases del with
    | true => exact ⟨rfl, rfl, rfl, rfl, rfl, rfl, _, rfl⟩
    | false => exact ⟨rfl, rfl, rfl, rfl, rfl, rfl, fun _ => true, (List.filter_eq_self.mpr (fun _ _ => rfl)).symm⟩

/-- clear: everything is handed over. -/
theorem clear_spec {max : Nat} {c : Cache} {e : Env} {all : List Rpc} (h : CInv max c e all) (he : EInv e all)
    (del : Bool) : CInv max (clear c e del).1 (clear c e del).2 all ∧ EInv (clear c e del).2 all ∧
      (clear c e del).1.map = [] ∧ (clear c e del).1.queue = [] ∧ (clear c e del).2.failed = e.failed ∧
      (clear c e del).1.ver = c.ver ∧ (clear c e del).2.out = e.out ++ [c.queue] := by
  obtain ⟨_, _, hv, ho, hx, hf, p, hp⟩ := stopTimer_spec c e del
  unfold clear
  dsimp only
  refine ⟨⟨Sorted.nil, .refl _, Nat.zero_le _, ?_, fun h => absurd rfl h, fun t _ r hr => by cases hr⟩, ?_, rfl, rfl, hf, hv, by rw [ho]⟩
  · rw [ho, List.flatten_append]
    simpa using (List.perm_append_comm).trans h.cons
  · refine ⟨he.ids, ?_, ?_, ?_⟩
    · intro t ht; rw [hp] at ht; exact he.heads t (List.mem_filter.mp ht).1
    · intro t ht; rw [hp] at ht; rw [hx]; exact he.tids t (List.mem_filter.mp ht).1
    · dsimp only; rw [hp]; exact he.tnodup.sublist (List.filter_sublist.map _)

/-- start_timer: either the cache has a live timer, or only versions change. -/
theorem startTimer_spec (c : Cache) (e : Env) (ok : Bool) (h : Rpc) (hh : c.queue.head? = some h) :
    (startTimer c e ok).2.2 = ok ∧ (startTimer c e ok).1.map = c.map ∧ (startTimer c e ok).1.queue = c.queue ∧
    (startTimer c e ok).1.ver = c.ver ∧ (startTimer c e ok).1.timerVer = c.timerVer + 1 ∧
    (startTimer c e ok).2.1.out = e.out ∧
    (startTimer c e ok).2.1.timers = (if ok then ⟨e.nextT, c.ver, c.timerVer + 1, h.recv, h.id⟩ :: e.timers else e.timers) ∧
    (startTimer c e ok).2.1.nextT = (if ok then e.nextT + 1 else e.nextT) ∧
    (startTimer c e ok).2.1.failed = (if ok then e.failed else true) := by
  unfold startTimer
  rw [hh]
  cases ok <;> exact ⟨rfl, rfl, rfl, rfl, rfl, rfl, rfl, rfl, rfl⟩

/-- A weaker invariant: no timer needed. -/
structure CInv' (max : Nat) (c : Cache) (e : Env) (all : List Rpc) : Prop where
  sorted : Sorted c.map
  perm : c.queue.Perm c.map
  size : c.map.length ≤ max
  cons : (c.queue ++ e.out.flatten).Perm all
  head : ∀ t ∈ e.timers, ∀ r ∈ c.queue, r.id = t.head → c.queue.head? = some r ∧ t.start = r.recv

theorem CInv.weak {max : Nat} {c : Cache} {e : Env} {all : List Rpc} (h : CInv max c e all) : CInv' max c e all :=
  ⟨h.sorted, h.perm, h.size, h.cons, h.head⟩

/-- start_timer, followed by clear when it fails. -/
theorem startOrClear {max : Nat} {c : Cache} {e : Env} {all : List Rpc} (h : CInv' max c e all) (he : EInv e all)
    (ok del : Bool) (hd : Rpc) (hh : c.queue.head? = some hd) :
    (ok = true → CInv max (startTimer c e ok).1 (startTimer c e ok).2.1 all ∧ EInv (startTimer c e ok).2.1 all) ∧
    (ok = false → CInv max (clear (startTimer c e ok).1 (startTimer c e ok).2.1 del).1
        (clear (startTimer c e ok).1 (startTimer c e ok).2.1 del).2 all ∧
      EInv (clear (startTimer c e ok).1 (startTimer c e ok).2.1 del).2 all ∧
      (clear (startTimer c e ok).1 (startTimer c e ok).2.1 del).1.map = [] ∧
      (clear (startTimer c e ok).1 (startTimer c e ok).2.1 del).1.queue = [] ∧
      (clear (startTimer c e ok).1 (startTimer c e ok).2.1 del).2.out = e.out ++ [c.queue] ∧
      (clear (startTimer c e ok).1 (startTimer c e ok).2.1 del).2.failed = true) := by
  obtain ⟨_, s1, s2, s3, s4, s5, s6, s7, s8⟩ := startTimer_spec c e ok hd hh
  have hmem : hd ∈ all := h.cons.mem_iff.mp (List.mem_append_left _ (List.mem_of_mem_head? hh))
  constructor
  · intro hk
    rw [if_pos hk] at s6 s7
    have hqn : (ids c.queue).Nodup := by
      have : (ids (c.queue ++ e.out.flatten)).Nodup := (h.cons.map Rpc.id).nodup_iff.mpr he.nodup
      unfold ids at this ⊢
      rw [List.map_append] at this
      exact (List.nodup_append.mp this).1
    refine ⟨⟨by rw [s1]; exact h.sorted, by rw [s1, s2]; exact h.perm, by rw [s1]; exact h.size,
      by rw [s2, s5]; exact h.cons, ?_, ?_⟩, ?_⟩
    · intro _
      exact ⟨_, by rw [s6]; exact List.mem_cons_self, s3.symm, s4.symm⟩
    · rw [s2, s6]
      intro t ht r hr hid
      rcases List.mem_cons.mp ht with rfl | ht
      · have hr2 : r = hd := id_inj hqn hr (List.mem_of_mem_head? hh) hid
        subst hr2; exact ⟨hh, rfl⟩
      · exact h.head t ht r hr hid
    · refine ⟨he.ids, ?_, ?_, ?_⟩
      · rw [s6]; intro t ht
        rcases List.mem_cons.mp ht with rfl | ht
        · exact ⟨hd, hmem, rfl, rfl⟩
        · exact he.heads t ht
      · rw [s6, s7]; intro t ht
        rcases List.mem_cons.mp ht with rfl | ht
        · exact Nat.lt_succ_self _
        · have := he.tids t ht; omega
      · rw [s6, List.map_cons, List.nodup_cons]
        refine ⟨?_, he.tnodup⟩
        intro hx
        obtain ⟨t, ht, hi⟩ := List.mem_map.mp hx
        have := he.tids t ht
        dsimp only at hi; omega
  · intro hk
    rw [if_neg (by rw [hk]; decide)] at s6 s7 s8
    obtain ⟨_, _, hv, ho, hx, hf, p, hp⟩ := stopTimer_spec (startTimer c e ok).1 (startTimer c e ok).2.1 del
    unfold clear
    dsimp only
    refine ⟨⟨Sorted.nil, .refl _, Nat.zero_le _, ?_, fun h => absurd rfl h, fun t _ r hr => by cases hr⟩, ?_, rfl, rfl, by rw [ho, s5, s2], by rw [hf, s8]⟩
    · rw [ho, s5, s2, List.flatten_append]
      simpa using (List.perm_append_comm).trans h.cons
    · refine ⟨he.ids, ?_, ?_, ?_⟩
      · intro t ht; rw [hp, s6] at ht; exact he.heads t (List.mem_filter.mp ht).1
      · intro t ht; rw [hp, s6] at ht; rw [hx, s7]; exact he.tids t (List.mem_filter.mp ht).1
      · dsimp only; rw [hp, s6]; exact he.tnodup.sublist (List.filter_sublist.map _)

/-- Handing some requests of the map over (from the front or the back) keeps the invariant. -/
theorem handOver {max : Nat} {c : Cache} {e : Env} {all a b : List Rpc} (h : CInv max c e all) (he : EInv e all)
    (hm : c.map.Perm (a ++ b)) (hb : b.Sublist c.map) (hlive : b ≠ [] → c.map ≠ []) (o : List Rpc) (ho : o.Perm a) :
    CInv max { c with map := b, queue := without c.queue a } { e with out := e.out ++ [o] } all ∧
    EInv { e with out := e.out ++ [o] } all := by
  have hqn := h.qnodup he
  have hmn : (ids c.map).Nodup := (h.perm.map Rpc.id).nodup_iff.mp hqn
  have hw := without_perm h.perm hm hmn
  refine ⟨⟨h.sorted.sub hb, hw, Nat.le_trans hb.length_le h.size, ?_, fun hne => h.live (hlive hne), ?_⟩,
    ⟨he.ids, he.heads, he.tids, he.tnodup⟩⟩
  · refine List.Perm.trans ?_ h.cons
    dsimp only
    rw [List.flatten_append, List.flatten_singleton]
    have h1 : (without c.queue a ++ o).Perm c.queue :=
      ((hw.append ho).trans List.perm_append_comm).trans (hm.symm.trans h.perm.symm)
    refine List.Perm.trans ?_ (h1.append_right e.out.flatten)
    rw [List.append_assoc]
    exact (List.Perm.refl _).append List.perm_append_comm
  · intro t ht r hr hid
    have hr' := (without_sublist _ _).subset hr
    obtain ⟨g1, g2⟩ := h.head t ht r hr' hid
    exact ⟨head_of_sublist (without_sublist _ _) hqn g1 hr rfl, g2⟩

/-- process_runable_rpcs. -/
theorem process_spec {max : Nat} {c : Cache} {e : Env} {all : List Rpc} (h : CInv max c e all) (he : EInv e all)
    (L : Int) (del : Bool) : CInv max (process c e L del).1 (process c e L del).2 all ∧
      EInv (process c e L del).2 all ∧ (process c e L del).1.map = (runable L c.map).2 ∧
      (process c e L del).2.failed = e.failed ∧
      (process c e L del).2.out = (if (runable L c.map).1.isEmpty then e.out else e.out ++ [(runable L c.map).1]) := by
  have hap := runable_append L c.map
  unfold process
  dsimp only
  generalize hA : (runable L c.map).1 = A at *
  generalize hB : (runable L c.map).2 = B at *
  have hstep : CInv max { c with map := B, queue := without c.queue A }
      (if A.isEmpty then e else { e with out := e.out ++ [A] }) all ∧
      EInv (if A.isEmpty then e else { e with out := e.out ++ [A] }) all := by
    have := handOver (a := A) (b := B) h he (by rw [hap]) (by rw [← hap]; exact List.sublist_append_right _ _)
      (fun hne => by rw [← hap]; exact fun hx => hne (List.append_eq_nil_iff.mp hx).2) A (.refl _)
    cases hAe : A.isEmpty with
    | false => exact this
    | true =>
      have hAn : A = [] := List.isEmpty_iff.mp hAe
      subst hAn
      obtain ⟨c1, _⟩ := this
      refine ⟨⟨c1.sorted, c1.perm, c1.size, ?_, c1.live, c1.head⟩, he⟩
      have := c1.cons
      dsimp only at this ⊢
      rw [List.flatten_append] at this
      simpa using this
  have hout : (if A.isEmpty then e else { e with out := e.out ++ [A] }).out = (if A.isEmpty then e.out else e.out ++ [A]) := by
    cases A.isEmpty <;> rfl
  have hfl : (if A.isEmpty then e else { e with out := e.out ++ [A] }).failed = e.failed := by
    cases A.isEmpty <;> rfl
  generalize hE : (if A.isEmpty then e else { e with out := e.out ++ [A] }) = E1 at *
  cases hBe : B.isEmpty with
  | false =>
    rw [if_neg (by decide)]
    exact ⟨hstep.1, hstep.2, rfl, hfl, hout⟩
  | true =>
    have hBn : B = [] := List.isEmpty_iff.mp hBe
    subst hBn
    rw [if_pos rfl]
    obtain ⟨t1, t2, hv, ho, hx, hf, p, hp⟩ := stopTimer_spec { c with map := [], queue := without c.queue A } E1 del
    obtain ⟨k, ke⟩ := hstep
    refine ⟨⟨by rw [t1]; exact k.sorted, by rw [t1, t2]; exact k.perm, by rw [t1]; exact k.size,
      by rw [t2, ho]; exact k.cons, fun hne => absurd t1 hne, ?_⟩, ⟨ke.ids, ?_, ?_, ?_⟩, t1, by rw [hf, hfl], by rw [ho, hout]⟩
    · rw [t2]; intro t ht; rw [hp] at ht; exact k.head t (List.mem_filter.mp ht).1
    · intro t ht; rw [hp] at ht; exact ke.heads t (List.mem_filter.mp ht).1
    · intro t ht; rw [hp] at ht; rw [hx]; exact ke.tids t (List.mem_filter.mp ht).1
    · rw [hp]; exact ke.tnodup.sublist (List.filter_sublist.map _)

/-- Taking requests from the end of the map. -/
theorem evict_spec {max m : Nat} {c : Cache} {e : Env} {all : List Rpc} (h : CInv m c e all) (he : EInv e all)
    (hmax : 0 < max) : CInv max (evict max c e).1 (evict max c e).2 all ∧ EInv (evict max c e).2 all ∧
      (evict max c e).2.failed = e.failed ∧ (evict max c e).1.ver = c.ver ∧
      ((evict max c e).1.map = [] → c.map = []) := by
  unfold evict
  by_cases hl : c.map.length > max
  · rw [if_pos hl]
    have hne : c.map ≠ [] := fun hx => by rw [hx] at hl; simp at hl
    obtain ⟨k, ke⟩ := handOver (a := (c.map.drop max).reverse) (b := c.map.take max) h he
      (by
        have h1 : ((c.map.drop max).reverse ++ c.map.take max).Perm (c.map.drop max ++ c.map.take max) :=
          (List.reverse_perm _).append_right _
        have h2 := h1.trans List.perm_append_comm
        rw [List.take_append_drop] at h2
        exact h2.symm)
      (List.take_sublist _ _) (fun _ => hne) _ (.refl _)
    refine ⟨⟨k.sorted, k.perm, ?_, k.cons, k.live, k.head⟩, ke, rfl, rfl, ?_⟩
    · show (c.map.take max).length ≤ max
      rw [List.length_take]; exact Nat.min_le_left _ _
    · intro hx
      have hx' : c.map.take max = [] := hx
      rcases List.take_eq_nil_iff.mp hx' with hx' | hx'
      · omega
      · exact hx'
  · rw [if_neg hl]
    exact ⟨⟨h.sorted, h.perm, Nat.le_of_not_gt hl, h.cons, h.live, h.head⟩, he, rfl, rfl, id⟩

theorem needClear_nil (r : Rpc) : needClear [] r = false := rfl

/-- store. -/
theorem store_spec {max : Nat} {c : Cache} {e : Env} {all : List Rpc} (h : CInv max c e all) (he : EInv e all)
    (hmax : 0 < max) (r : Rpc) (hid : r.id = all.length) (hr : 0 < r.n) (ok del : Bool) :
    CInv max (store max c e r ok del).1 (store max c e r ok del).2 (all ++ [r]) ∧
      EInv (store max c e r ok del).2 (all ++ [r]) ∧
      ((store max c e r ok del).1.map = [] → (store max c e r ok del).2.failed = true) ∧
      (e.failed = true → (store max c e r ok del).2.failed = true) := by
  unfold store
  dsimp only
  -- what precedes the insertion
  have ha : CInv max (if needClear c.map r then clear c e del else (c, e)).1
      (if needClear c.map r then clear c e del else (c, e)).2 all ∧
      EInv (if needClear c.map r then clear c e del else (c, e)).2 all ∧
      needClear (if needClear c.map r then clear c e del else (c, e)).1.map r = false ∧
      (if needClear c.map r then clear c e del else (c, e)).2.failed = e.failed := by
    cases hn : needClear c.map r with
    | true =>
      rw [if_pos rfl]
      obtain ⟨k1, k2, k3, _, k5, _⟩ := clear_spec h he del
      exact ⟨k1, k2, by rw [k3]; rfl, k5⟩
    | false => rw [if_neg (by decide)]; exact ⟨h, he, hn, rfl⟩
  generalize (if needClear c.map r then clear c e del else (c, e)) = A at *
  obtain ⟨hA, heA, hnA, hfA⟩ := ha
  obtain ⟨hins, hinse⟩ := insert_sorted hA.sorted hnA hr
  have hinsP := insert_perm hinse
  have hfresh : ∀ x ∈ all, x.id < all.length := by
    intro x hx
    have : x.id ∈ ids all := List.mem_map_of_mem hx
    rw [heA.ids] at this
    exact List.mem_range.mp this
  -- the weak invariant after the insertion
  have hw : CInv' (max + 1) { A.1 with queue := A.1.queue ++ [r], map := insert A.1.map r } A.2 (all ++ [r]) := by
    refine ⟨hins, ?_, ?_, ?_, ?_⟩
    · exact (List.perm_append_comm.trans (hA.perm.cons r)).trans hinsP.symm
    · show (insert A.1.map r).length ≤ max + 1
      rw [hinsP.length_eq, List.length_cons]
      have := hA.size; omega
    · show ((A.1.queue ++ [r]) ++ A.2.out.flatten).Perm (all ++ [r])
      rw [List.append_assoc]
      refine (((List.Perm.refl A.1.queue).append List.perm_append_comm)).trans ?_
      rw [← List.append_assoc]
      exact hA.cons.append_right _
    · intro t ht x hx hxid
      obtain ⟨y, hy, hyid, hyr⟩ := heA.heads t ht
      rcases List.mem_append.mp hx with hx | hx
      · obtain ⟨g1, g2⟩ := hA.head t ht x hx hxid
        refine ⟨?_, g2⟩
        show (A.1.queue ++ [r]).head? = some x
        cases hq : A.1.queue with
        | nil => rw [hq] at hx; cases hx
        | cons z q => rw [hq] at g1; exact g1
      · simp at hx; subst hx
        have := hfresh y hy; omega
  have heAll : EInv A.2 (all ++ [r]) := by
    refine ⟨?_, ?_, heA.tids, heA.tnodup⟩
    · unfold ids
      rw [List.map_append]
      have := heA.ids
      unfold ids at this
      rw [this, List.length_append]
      simp [List.range_succ, hid]
    · intro t ht
      obtain ⟨y, hy, h1, h2⟩ := heA.heads t ht
      exact ⟨y, List.mem_append_left _ hy, h1, h2⟩
  by_cases hone : (insert A.1.map r).length = 1
  · rw [if_pos hone]
    have hA0 : A.1.queue = [] := by
      have h1 : A.1.map.length = 0 := by
        have := hinsP.length_eq; rw [List.length_cons] at this; omega
      have : A.1.queue.length = 0 := by rw [hA.perm.length_eq]; exact h1
      exact List.eq_nil_of_length_eq_zero this
    have hhead : (Cache.queue { A.1 with queue := A.1.queue ++ [r], map := insert A.1.map r }).head? = some r := by
      show (A.1.queue ++ [r]).head? = some r
      rw [hA0]; rfl
    obtain ⟨o1, o2⟩ := startOrClear hw heAll ok del r hhead
    obtain ⟨s0, s1, s2, s3, s4, s5, s6, s7, s8⟩ := startTimer_spec _ A.2 ok r hhead
    rw [s0]
    cases ok with
    | true =>
      rw [if_pos rfl]
      obtain ⟨p1, p2⟩ := o1 rfl
      obtain ⟨q1, q2, q3, q4, q5⟩ := evict_spec (max := max) p1 p2 hmax
      refine ⟨q1, q2, ?_, ?_⟩
      · intro hx
        have := q5 hx
        rw [s1] at this
        rw [show (Cache.map { A.1 with queue := A.1.queue ++ [r], map := insert A.1.map r }) = insert A.1.map r from rfl] at this
        rw [this] at hone; simp at hone
      · intro hf; rw [q3, s8, if_pos rfl, hfA]; exact hf
    | false =>
      rw [if_neg (by decide)]
      obtain ⟨p1, p2, p3, _, _, p6⟩ := o2 rfl
      exact ⟨⟨p1.sorted, p1.perm, by rw [p3]; exact Nat.zero_le _, p1.cons, p1.live, p1.head⟩, p2, fun _ => p6, fun _ => p6⟩
  · rw [if_neg hone]
    have hAne : A.1.map ≠ [] := by
      intro hx
      rw [hx] at hone
      exact hone rfl
    have hc : CInv (max + 1) { A.1 with queue := A.1.queue ++ [r], map := insert A.1.map r } A.2 (all ++ [r]) :=
      ⟨hw.sorted, hw.perm, hw.size, hw.cons, fun _ => hA.live hAne, hw.head⟩
    obtain ⟨q1, q2, q3, q4, q5⟩ := evict_spec (max := max) hc heAll hmax
    refine ⟨q1, q2, ?_, fun hf => by rw [q3, hfA]; exact hf⟩
    intro hx
    have := q5 hx
    have h3 : insert A.1.map r = [] := this
    have := hinsP.length_eq
    rw [h3] at this; simp at this

/-- The whole node. -/
structure Inv (max : Nat) (s : State) : Prop where
  einv : EInv s.env s.stored
  some : ∀ c, s.cache = some c → CInv max c s.env s.stored ∧ (c.map = [] → s.env.failed = true)
  none : s.cache = none → (s.env.out.flatten).Perm s.stored
  abort : s.aborted = true → s.env.failed = true

theorem CInv.empty_perm {max : Nat} {c : Cache} {e : Env} {all : List Rpc} (h : CInv max c e all)
    (hm : c.map = []) : (e.out.flatten).Perm all := by
  have hq : c.queue = [] := by
    have := h.perm.length_eq; rw [hm] at this
    exact List.eq_nil_of_length_eq_zero this
  have := h.cons
  rw [hq] at this
  exact this

theorem Inv.dropEmpty {max : Nat} {s : State} {c : Cache} {e : Env} (hc : CInv max c e s.stored)
    (he : EInv e s.stored) (hab : s.aborted = true → e.failed = true) :
    Inv max { s with cache := AeCache.dropEmpty c, env := e } := by
  unfold AeCache.dropEmpty
  cases hm : c.map.isEmpty with
  | true => exact ⟨he, fun _ h => (by cases h), fun _ => hc.empty_perm (List.isEmpty_iff.mp hm), hab⟩
  | false =>
    refine ⟨he, ?_, fun h => (by cases h), hab⟩
    intro c' h
    cases h
    refine ⟨hc, fun hx => ?_⟩
    rw [hx] at hm; cases hm

theorem timedout_spec {max : Nat} {c : Cache} {e : Env} {all : List Rpc} (h : CInv' max c e all) (he : EInv e all)
    (hne : c.map ≠ []) (start : Int) (ok del : Bool) :
    CInv max (timedout c e start ok del).1 (timedout c e start ok del).2 all ∧
      EInv (timedout c e start ok del).2 all ∧ (e.failed = true → (timedout c e start ok del).2.failed = true) ∧
      ((timedout c e start ok del).1.queue = [] ∨
        (timedout c e start ok del).1.queue = c.queue ∧ ∃ x, c.queue.head? = some x ∧ start < x.recv) := by
  unfold timedout
  cases hh : c.queue.head? with
  | none =>
    have : c.queue = [] := by cases hq : c.queue with | nil => rfl | cons a b => rw [hq] at hh; cases hh
    have hl := h.perm.length_eq
    rw [this] at hl
    exact absurd (List.eq_nil_of_length_eq_zero hl.symm) hne
  | some x =>
    dsimp only
    by_cases hle : x.recv ≤ start
    · rw [if_pos hle]
      -- clear does not need the timer
      obtain ⟨_, _, hv, ho, hx, hf, p, hp⟩ := stopTimer_spec c e del
      unfold clear
      dsimp only
      refine ⟨⟨Sorted.nil, .refl _, Nat.zero_le _, ?_, fun h => absurd rfl h, fun t _ r hr => by cases hr⟩, ⟨he.ids, ?_, ?_, ?_⟩, fun hf' => by rw [hf]; exact hf', Or.inl rfl⟩
      · rw [ho, List.flatten_append]
        simpa using (List.perm_append_comm).trans h.cons
      · intro t ht; rw [hp] at ht; exact he.heads t (List.mem_filter.mp ht).1
      · intro t ht; rw [hp] at ht; rw [hx]; exact he.tids t (List.mem_filter.mp ht).1
      · dsimp only; rw [hp]; exact he.tnodup.sublist (List.filter_sublist.map _)
    · rw [if_neg hle]
      obtain ⟨o1, o2⟩ := startOrClear h he ok del x hh
      obtain ⟨s0, s1, s2, s3, s4, s5, s6, s7, s8⟩ := startTimer_spec c e ok x hh
      rw [s0]
      cases ok with
      | true =>
        rw [if_pos rfl]
        obtain ⟨p1, p2⟩ := o1 rfl
        exact ⟨p1, p2, fun hf => by rw [s8, if_pos rfl]; exact hf, Or.inr ⟨s2, x, rfl, by omega⟩⟩
      | false =>
        rw [if_neg (by decide)]
        obtain ⟨p1, p2, _, p4, _, p6⟩ := o2 rfl
        exact ⟨p1, p2, fun _ => p6, Or.inl p4⟩

theorem timer_inj {l : List Timer} (hnd : (l.map (·.id)).Nodup) {x t : Timer} (hx : x ∈ l) (ht : t ∈ l)
    (hid : x.id = t.id) : x = t := by
  induction l with
  | nil => cases hx
  | cons a l ihl =>
    rw [List.map_cons, List.nodup_cons] at hnd
    rcases List.mem_cons.mp hx with h1 | h1 <;> rcases List.mem_cons.mp ht with h2 | h2
    · rw [h1, h2]
    · subst h1; exact absurd (by rw [hid]; exact List.mem_map_of_mem h2) hnd.1
    · subst h2; exact absurd (by rw [← hid]; exact List.mem_map_of_mem h1) hnd.1
    · exact ihl hnd.2 h1 h2

theorem Inv.outOfOrder {max : Nat} (hmax : 0 < max) {s : State} (ih : Inv max s) (hn : s.aborted = false)
    (last prev : Int) (n : Nat) (recv : Int) (ok del : Bool) :
    Inv max (s.outOfOrder max last prev n recv ok del).1 := by
  unfold State.outOfOrder
  by_cases hc : last ≥ prev ∨ n = 0
  · rw [if_pos hc]; exact ih
  · rw [if_neg hc]
    have hn0 : 0 < n := by omega
    have hc0 : CInv max (s.cache.getD (Cache.new (s.ver + 1))) s.env s.stored := by
      cases hs : s.cache with
      | some c => exact (ih.some c hs).1
      | none =>
        exact ⟨Sorted.nil, .refl _, Nat.zero_le _, ih.none hs, fun h => absurd rfl h, fun _ _ _ h => (by cases h)⟩
    obtain ⟨k1, k2, k3, k4⟩ := store_spec hc0 ih.einv hmax ⟨s.stored.length, prev, n, recv⟩ rfl hn0 ok del
    refine ⟨k2, ?_, fun h => (by cases h), fun ha => (by rw [hn] at ha; cases ha)⟩
    intro c hcc
    cases hcc
    exact ⟨k1, k3⟩

theorem Inv.check {max : Nat} {s : State} (ih : Inv max s) (hn : s.aborted = false) (last : Int) (del : Bool) :
    Inv max (s.check last del) := by
  unfold State.check
  cases hs : s.cache with
  | none => exact ih
  | some c =>
    obtain ⟨hc, hf⟩ := ih.some c hs
    dsimp only
    cases hm : c.map.isEmpty with
    | true =>
      rw [if_pos rfl]
      have hf' := hf (List.isEmpty_iff.mp hm)
      exact ⟨ih.einv, fun c' h' => ih.some c' (hs.trans h'), fun h' => ih.none (hs.trans h'), fun _ => hf'⟩
    | false =>
      rw [if_neg (by decide)]
      obtain ⟨p1, p2, p3, p4, _⟩ := process_spec hc ih.einv last del
      exact Inv.dropEmpty p1 p2 (fun ha => (by rw [hn] at ha; cases ha))

/-- Every reachable state. -/
theorem Hist.inv {max : Nat} (hmax : 0 < max) {s : State} (h : Hist max s) : Inv max s := by
  induction h with
  | init =>
    exact ⟨⟨rfl, fun _ h => (by cases h), fun _ h => (by cases h), .nil⟩, fun _ h => (by cases h), fun _ => .refl _,
      fun h => (by cases h)⟩
  | @request s h hn fc fits last prev n recv ok del ih =>
    unfold State.request
    cases fits with
    | false =>
      rw [if_pos (by decide)]
      split
      · exact ih.outOfOrder hmax hn last prev n recv ok del
      · exact ih
    | true =>
      rw [if_neg (by decide)]
      split
      · exact ih
      · exact ih.check hn _ del
  | @clearAll s h hn del ih =>
    unfold State.clearAll
    cases hs : s.cache with
    | none => exact ih
    | some c =>
      obtain ⟨hc, hf⟩ := ih.some c hs
      obtain ⟨p1, p2, p3, _⟩ := clear_spec hc ih.einv del
      exact ⟨p2, fun _ h => (by cases h), fun _ => p1.empty_perm p3, fun ha => (by rw [hn] at ha; cases ha)⟩
  | @fire s h hn t ht ok del ih =>
    unfold State.fire
    dsimp only
    have heF : EInv { s.env with timers := s.env.timers.filter (fun x => decide (x.id ≠ t.id)) } s.stored :=
      ih.einv.filter _ _
    cases hs : s.cache with
    | none =>
      dsimp only
      exact ⟨heF, fun c h => (by cases h), fun _ => ih.none hs, ih.abort⟩
    | some c =>
      obtain ⟨hc, hf⟩ := ih.some c hs
      dsimp only
      have hwk : CInv' max c { s.env with timers := s.env.timers.filter (fun x => decide (x.id ≠ t.id)) } s.stored :=
        ⟨hc.sorted, hc.perm, hc.size, hc.cons, fun x hx => hc.head x (List.mem_filter.mp hx).1⟩
      -- if the fired timer is not the live one, the live one is still there
      have hkeep : ¬ (t.cacheVer = c.ver ∧ t.timerVer = c.timerVer) →
          CInv max c { s.env with timers := s.env.timers.filter (fun x => decide (x.id ≠ t.id)) } s.stored := by
        intro hne
        refine ⟨hc.sorted, hc.perm, hc.size, hc.cons, ?_, hwk.head⟩
        intro hm
        obtain ⟨x, hx, hx1, hx2⟩ := hc.live hm
        refine ⟨x, List.mem_filter.mpr ⟨hx, ?_⟩, hx1, hx2⟩
        refine decide_eq_true ?_
        intro hid
        have : x = t := timer_inj ih.einv.tnodup hx ht hid
        subst this
        exact hne ⟨hx1, hx2⟩
      by_cases h1 : t.cacheVer ≠ c.ver
      · rw [if_pos h1]
        refine ⟨heF, ?_, fun h => (by cases h), ih.abort⟩
        intro c' h'
        cases h'
        exact ⟨hkeep (fun hh => h1 hh.1), hf⟩
      · rw [if_neg h1]
        by_cases h2 : t.timerVer ≠ c.timerVer
        · rw [if_pos h2]
          exact Inv.dropEmpty (s := s) (hkeep (fun hh => h2 hh.2)) heF (fun ha => (by rw [hn] at ha; cases ha))
        · rw [if_neg h2]
          cases hm : c.map.isEmpty with
          | true =>
            rw [if_pos rfl]
            have hm' := List.isEmpty_iff.mp hm
            refine ⟨heF, ?_, fun h => (by cases h), fun _ => hf hm'⟩
            intro c' h'
            cases h'
            exact ⟨⟨hc.sorted, hc.perm, hc.size, hc.cons, fun hx => absurd hm' hx, hwk.head⟩, hf⟩
          | false =>
            rw [if_neg (by decide)]
            have hne : c.map ≠ [] := fun hx => by rw [hx] at hm; cases hm
            obtain ⟨p1, p2, p3, _⟩ := timedout_spec hwk heF hne t.start ok del
            exact Inv.dropEmpty (s := s) p1 p2 (fun ha => (by rw [hn] at ha; cases ha))

end Braft.AeCache
