import Verif.Log.ManagerInv
/-
Preservation of the invariant of LogManager by each of its operations.
-/
set_option linter.unusedVariables false
set_option linter.unusedSimpArgs false

namespace Braft.LogMgr
open Braft.MemLog

variable {α : Type}

theorem Core.memConsec {s : State α} {L} (h : Core s L) :
    Consec (s.last - s.mem.length + 1) s.mem ∧ s.mem.length ≤ L.length ∧
      s.mem = L.drop (L.length - s.mem.length) := by
  have hc := consec_suffix h.idx h.suf
  have hl := h.suf.length_le
  have hlen := h.len
  refine ⟨?_, hl, ?_⟩
  · rwa [show s.last - (s.mem.length : Int) + 1 = s.first + ((L.length - s.mem.length : Nat) : Int) by omega]
  · obtain ⟨p, hp⟩ := h.suf
    rw [← hp, List.length_append, show p.length + s.mem.length - s.mem.length = p.length by omega, List.drop_left]

theorem Core.truncatePrefix {s : State α} {L} (h : Core s L) {k : Int} (hk : s.first ≤ k) :
    Core (s.truncatePrefix k) (L.drop (k - s.first).toNat) := by
  obtain ⟨hc, hl, hm⟩ := h.memConsec
  have hlen := h.len
  have hpos := h.pos
  have hd := dropWhile_consec _ k _ hc
  have hml : (s.mem.dropWhile (fun e => decide (e.index < k))).length =
      s.mem.length - (k - (s.last - s.mem.length + 1)).toNat := by rw [hd, List.length_drop]
  refine ⟨?_, ?_, ?_, ?_, h.sto, ?_, ?_, ?_, ?_⟩
  · show 1 ≤ k; omega
  · show Consec k (L.drop _)
    by_cases hn : (k - s.first).toNat ≤ L.length
    · have := consec_drop _ _ h.idx _ hn
      rwa [show s.first + ((k - s.first).toNat : Int) = k by omega] at this
    · rw [List.drop_eq_nil_of_le (by omega)]; trivial
  · show (if k > s.last then k - 1 else s.last) = k + ((L.drop _).length : Int) - 1
    rw [List.length_drop]
    split <;> omega
  · show s.mem.dropWhile _ <:+ L.drop _
    rw [hd, hm, List.length_drop, List.drop_drop]
    have : L.length - s.mem.length + (k - (s.last - ((L.length - (L.length - s.mem.length) : Nat) : Int) + 1)).toNat
        = (k - s.first).toNat + (L.length - s.mem.length + (k - (s.last - (s.mem.length : Int) + 1)).toNat - (k - s.first).toNat) := by
      omega
    rw [this, ← List.drop_drop]
    exact List.drop_suffix ..
  · intro es c hmem
    rcases List.mem_append.mp hmem with hmem | hmem
    · exact h.jobs es c hmem
    · simp at hmem
  · show s.store.runAll (s.queue ++ [.truncPrefix k]) = _
    rw [runAll_snoc _ _ _ _ h.pend]
    simp only [Sto.run]
    rw [if_pos hk]; rfl
  · intro es c hmem e he hf
    have hf' : k ≤ e.index := hf
    show (if k > s.last then k - 1 else s.last) - ((s.mem.dropWhile _).length : Int) < e.index
    rw [hml]
    rcases List.mem_append.mp hmem with hmem | hmem
    · have := h.npend es c hmem e he (by omega)
      split <;> omega
    · simp at hmem
  · intro e he; exact h.termPos e (List.mem_of_mem_drop he)

theorem Core.reset {s : State α} {L} (h : Core s L) {n : Int} (hn : 0 < n) : Core (s.resetLog n) [] := by
  refine ⟨by show 1 ≤ n; omega, trivial, by show n - 1 = n + ((0 : Nat) : Int) - 1; omega, List.suffix_refl _, h.sto, ?_, ?_, ?_, by simp⟩
  · intro es c hmem
    rcases List.mem_append.mp hmem with hmem | hmem
    · exact h.jobs es c hmem
    · simp at hmem
  · show s.store.runAll (s.queue ++ [.reset n]) = _
    rw [runAll_snoc _ _ _ _ h.pend]
    simp only [Sto.run]
    rw [if_pos hn]; rfl
  · intro es c hmem e he hf
    have hf' : n ≤ e.index := hf
    show n - 1 - ((0 : Nat) : Int) < e.index
    omega

theorem Core.truncateSuffix {s : State α} {L} (h : Core s L) {k t : Int} (hk1 : s.first - 1 ≤ k) (hk2 : k ≤ s.last) :
    Core { s with mem := popBack k s.mem, last := k, queue := s.queue ++ [.truncSuffix k t] }
      (L.take (k + 1 - s.first).toNat) := by
  obtain ⟨hc, hl, hm⟩ := h.memConsec
  have hlen := h.len
  have hpos := h.pos
  have hp := popBack_consec _ k _ hc
  have hml : (popBack k s.mem).length = min (k + 1 - (s.last - s.mem.length + 1)).toNat s.mem.length := by
    rw [hp, List.length_take]
  refine ⟨hpos, consec_take _ _ h.idx _, ?_, ?_, h.sto, ?_, ?_, ?_, ?_⟩
  · show k = s.first + ((L.take _).length : Int) - 1
    rw [List.length_take]; omega
  · show popBack k s.mem <:+ L.take _
    rw [hp]
    obtain ⟨p, hpp⟩ := h.suf
    have hL : L.length = p.length + s.mem.length := by rw [← hpp, List.length_append]
    refine ⟨p.take (k + 1 - s.first).toNat, ?_⟩
    rw [← hpp, List.take_append]
    congr 2
    omega
  · intro es c hmem
    rcases List.mem_append.mp hmem with hmem | hmem
    · exact h.jobs es c hmem
    · simp at hmem
  · show s.store.runAll (s.queue ++ [.truncSuffix k t]) = _
    rw [runAll_snoc _ _ _ _ h.pend]
    simp only [Sto.run]
    rw [if_pos]
    unfold Sto.last
    dsimp only
    omega
  · intro es c hmem e he hf
    have hf' : s.first ≤ e.index := hf
    show k - ((popBack k s.mem).length : Int) < e.index
    rw [hml]
    rcases List.mem_append.mp hmem with hmem | hmem
    · have := h.npend es c hmem e he hf'
      omega
    · simp at hmem
  · intro e he; exact h.termPos e (List.mem_of_mem_take he)

theorem Core.enqueue {s : State α} {L} (h : Core s L) {es : List (Ent α)} (cid : Nat)
    (hc : Consec (s.last + 1) es) (ht : ∀ e ∈ es, 1 ≤ e.term) :
    Core (({ s with last := s.last + es.length } : State α).enqueue es cid) (L ++ es) := by
  have hlen := h.len
  have hml := h.suf.length_le
  refine ⟨h.pos, ?_, ?_, ?_, h.sto, ?_, ?_, ?_, ?_⟩
  · show Consec s.first (L ++ es)
    rw [consec_append]
    refine ⟨h.idx, ?_⟩
    rwa [show s.first + (L.length : Int) = s.last + 1 by omega]
  · show s.last + es.length = s.first + ((L ++ es).length : Int) - 1
    rw [List.length_append]; omega
  · show s.mem ++ es <:+ L ++ es
    obtain ⟨p, hp⟩ := h.suf
    exact ⟨p, by rw [← hp, List.append_assoc]⟩
  · intro xs c hmem
    rcases List.mem_append.mp hmem with hmem | hmem
    · exact h.jobs xs c hmem
    · simp at hmem
      obtain ⟨rfl, rfl⟩ := hmem
      intro f hf
      cases xs with
      | nil => trivial
      | cons e xs =>
        simp at hf
        have := hc.1
        rw [← hf, this]; exact hc
  · show s.store.runAll (s.queue ++ [.append es cid]) = _
    rw [runAll_snoc _ _ _ _ h.pend]
    simp only [Sto.run]
    cases es with
    | nil => simp; rfl
    | cons e es =>
      have he : ((e :: es).head?.map (·.index)) = some ((⟨s.first, L⟩ : Sto α).last + 1) := by
        have := hc.1
        unfold Sto.last
        show some e.index = _
        congr 1
        dsimp only
        omega
      rw [if_neg (by simp), if_pos he]
      rfl
  · intro xs c hmem e he hf
    have hf' : s.first ≤ e.index := hf
    show s.last + (es.length : Int) - ((s.mem ++ es).length : Int) < e.index
    rw [List.length_append]
    rcases List.mem_append.mp hmem with hmem | hmem
    · have := h.npend xs c hmem e he hf'
      omega
    · simp at hmem
      obtain ⟨rfl, rfl⟩ := hmem
      have := consec_mem hc he
      omega
  · intro e he
    rcases List.mem_append.mp he with he | he
    · exact h.termPos e he
    · exact ht e he

/-- Removing the front entry from memory is safe unless it is waiting for the disk. -/
theorem Core.clear {s : State α} {L} (h : Core s L) (c : Id)
    (hs : ∀ e rest, s.mem = e :: rest → c.lt (entId e) = false →
      ∀ es cid, Job.append es cid ∈ s.queue → ∀ x ∈ es, x.index ≠ e.index) : Core (s.clear c) L := by
  unfold State.clear
  cases hm : s.mem with
  | nil => exact h
  | cons e rest =>
    dsimp only
    cases hc : c.lt (entId e) with
    | true => simpa using h
    | false =>
      simp only [Bool.false_eq_true, if_false]
      obtain ⟨hmc, hl, _⟩ := h.memConsec
      rw [hm] at hmc hl
      have hei := hmc.1
      have hlen := h.len
      simp only [List.length_cons] at hei hl
      refine ⟨h.pos, h.idx, h.len, ?_, h.sto, h.jobs, h.pend, ?_, h.termPos⟩
      · have := h.suf
        rw [hm] at this
        exact (List.suffix_cons e rest).trans this
      · intro es cid hmem x hx hf
        have h1 := h.npend es cid hmem x hx hf
        have h2 := hs e rest hm hc es cid hmem x hx
        rw [hm] at h1
        simp only [List.length_cons] at h1
        show s.last - (rest.length : Int) < x.index
        omega

/-! ### The disk thread -/

/-- All jobs are appends with entries. -/
def AllAppends (js : List (Job α)) : Prop := ∀ j ∈ js, ∃ es c, j = .append es c ∧ es ≠ []

theorem runAll_appends {a b : Sto α} {js : List (Job α)} (hj : AllAppends js) (h : a.runAll js = some b) :
    b = ⟨a.first, a.ents ++ jobEnts js⟩ := by
  induction js generalizing a with
  | nil => simp only [Sto.runAll, Option.some.injEq] at h; subst h; simp [jobEnts]
  | cons j js ih =>
    obtain ⟨es, c, rfl, hne⟩ := hj j (List.mem_cons_self ..)
    simp only [Sto.runAll, Sto.run] at h
    rw [if_neg (by cases es <;> simp_all)] at h
    split at h
    · simp at h
    · rename_i a' ha'
      split at ha'
      · simp at ha'
        subst ha'
        rw [ih (fun j hj' => hj j (List.mem_cons_of_mem _ hj')) h]
        simp [jobEnts]
      · simp at ha'

theorem runAll_ok {a b : Sto α} {q : List (Job α)} (h : a.runAll q = some b) (ha : StoOk a) (hq : JobsOk q) : StoOk b := by
  induction q generalizing a with
  | nil => simp only [Sto.runAll, Option.some.injEq] at h; subst h; exact ha
  | cons j q ih =>
    simp only [Sto.runAll] at h
    cases hr : a.run j with
    | none => rw [hr] at h; simp at h
    | some a' =>
      rw [hr] at h
      exact ih h (run_ok hr ha (fun es c hj => hq es c (by rw [hj]; exact List.mem_cons_self ..)))
        (fun es c hm => hq es c (List.mem_cons_of_mem _ hm))

theorem runAll_split {a b : Sto α} {x y : List (Job α)} (h : a.runAll (x ++ y) = some b) :
    ∃ m, a.runAll x = some m ∧ m.runAll y = some b := by
  rw [runAll_append] at h
  cases hx : a.runAll x with
  | none => rw [hx] at h; simp at h
  | some m => rw [hx] at h; exact ⟨m, rfl, h⟩

/-- Doing a prefix of the queue. -/
theorem Core.done {s s' : State α} {L} {js rest : List (Job α)} {m : Sto α} (h : Core s L) (hq : s.queue = js ++ rest)
    (hm : s.store.runAll js = some m) (h1 : s'.first = s.first) (h2 : s'.last = s.last) (h3 : s'.mem = s.mem)
    (h4 : s'.queue = rest) (h5 : s'.store = m) : Core s' L := by
  have hj : JobsOk js := fun es c hmem => h.jobs es c (by rw [hq]; exact List.mem_append_left _ hmem)
  have hp := h.pend
  rw [hq] at hp
  obtain ⟨m', hm', hr⟩ := runAll_split hp
  rw [hm] at hm'
  cases hm'
  refine ⟨by rw [h1]; exact h.pos, by rw [h1]; exact h.idx, by rw [h1, h2]; exact h.len, by rw [h3]; exact h.suf,
    by rw [h5]; exact runAll_ok hm h.sto hj, ?_, by rw [h5, h4, h1]; exact hr, ?_, h.termPos⟩
  · rw [h4]; exact fun es c hmem => h.jobs es c (by rw [hq]; exact List.mem_append_right _ hmem)
  · rw [h4, h1, h2, h3]
    exact fun es c hmem => h.npend es c (by rw [hq]; exact List.mem_append_right _ hmem)

end Braft.LogMgr
