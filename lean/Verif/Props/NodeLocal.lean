import Verif.NodeLocal
/-!
Properties C49 (read_committed_user_log) and C50 (term at restart).
-/
set_option linter.unusedVariables false
namespace Braft.Props
open Braft.NodeLocal
universe u
variable {D : Type u} {P : Type u}

/-- C49. `get k i` is the answer of the log at the k-th read of this call (it may be compacted in
between). Whatever it answers, if the call returns an entry, then its index is at least the
requested one and at most the applied index, the log held a data entry with exactly this data
there, and every entry between the requested index and it was read and is not a data entry. -/
theorem C49_ok (get : Nat → Nat → Option (NodeLocal.Entry D)) (applied : Nat) (index : Int) (i : Nat) (d : D)
    (h : readCommitted get applied index = .ok i d) :
    1 ≤ index ∧ index ≤ i ∧ i ≤ applied ∧
    (∃ k, get k i = some ⟨.data, d⟩) ∧
    ∀ j : Nat, index ≤ j → j < i → ∃ k x, get k j = some x ∧ x.kind ≠ .data := by
  unfold readCommitted at h
  split at h
  · simp at h
  next h1 =>
  split at h
  · simp at h
  next h2 =>
  cases hg : get 0 index.toNat with
  | none => rw [hg] at h; simp at h
  | some e =>
    rw [hg] at h
    have hs := readLoop_spec get applied (applied - index.toNat) 0 index.toNat e rfl (by omega) hg
    simp only at h
    rw [h] at hs
    obtain ⟨a, b, c, f⟩ := hs
    refine ⟨by omega, by omega, b, ⟨_, c⟩, ?_⟩
    intro j hj1 hj2
    obtain ⟨x, hx1, hx2⟩ := f j (by omega) hj2
    exact ⟨_, x, hx1, hx2⟩

/-- C49. If the log answers consistently with one committed history `com` (as it does for applied
indexes), the entry returned is the first data entry of that history at or after `index`. -/
theorem C49_first_user_entry (get : Nat → Nat → Option (NodeLocal.Entry D)) (com : Nat → NodeLocal.Entry D)
    (applied : Nat) (hcom : ∀ k i e, i ≤ applied → get k i = some e → e = com i)
    (index : Int) (i : Nat) (d : D) (h : readCommitted get applied index = .ok i d) :
    com i = ⟨.data, d⟩ ∧ i ≤ applied ∧
      ∀ j : Nat, index ≤ j → j < i → (com j).kind ≠ .data := by
  obtain ⟨h1, h2, h3, ⟨k, hk⟩, h5⟩ := C49_ok get applied index i d h
  refine ⟨(hcom k i _ h3 hk).symm, h3, ?_⟩
  intro j hj1 hj2
  obtain ⟨k', x, hx1, hx2⟩ := h5 j hj1 hj2
  have := hcom k' j x (by omega) hx1
  rw [← this]; exact hx2

/-- C49. The errors: EINVAL exactly for indexes below 1; ENOMOREUSERLOG only if no data entry was
read from `index` up to the applied index; ELOGDELETED names an applied index that was gone. -/
theorem C49_errors (get : Nat → Nat → Option (NodeLocal.Entry D)) (applied : Nat) (index : Int) :
    (readCommitted get applied index = .einval ↔ index ≤ 0) ∧
    (readCommitted get applied index = .noMore →
      ∀ j : Nat, index ≤ j → j ≤ applied → ∃ k x, get k j = some x ∧ x.kind ≠ .data) ∧
    (∀ i, readCommitted get applied index = .deleted i →
      index ≤ i ∧ i ≤ applied ∧ ∃ k, get k i = none) := by
  unfold readCommitted
  by_cases h1 : index ≤ 0
  · simp [h1]
  by_cases h2 : index > (applied : Int)
  · simp only [h1, h2, if_true, if_false]
    refine ⟨by simp, fun _ j hj1 hj2 => by omega, by simp⟩
  · simp only [h1, h2, if_false]
    cases hg : get 0 index.toNat with
    | none =>
      simp only
      refine ⟨by simp, by simp, ?_⟩
      intro i hi
      simp only [ReadResult.deleted.injEq] at hi
      subst hi
      exact ⟨by omega, by omega, 0, hg⟩
    | some e =>
      have hs := readLoop_spec get applied (applied - index.toNat) 0 index.toNat e rfl (by omega) hg
      simp only
      generalize readLoop get applied (applied - index.toNat) 0 index.toNat e = r at hs
      cases r with
      | ok i d => simp
      | einval => simp at hs
      | noMore =>
        simp only at hs
        refine ⟨by simp, ?_, by simp⟩
        intro _ j hj1 hj2
        obtain ⟨x, a, b⟩ := hs j (by omega) hj2
        exact ⟨_, x, a, b⟩
      | deleted i' =>
        obtain ⟨a, b, c, f⟩ := hs
        refine ⟨by simp, by simp, ?_⟩
        intro i hi
        simp only [ReadResult.deleted.injEq] at hi
        subst hi
        exact ⟨by omega, b, _, c⟩

/-- Skips a configuration entry; stops at the applied index; sees a compaction between two reads. -/
example :
    let log : Nat → Option (NodeLocal.Entry String) := fun i =>
      [none, some ⟨.data, "a"⟩, some ⟨.config, ""⟩, some ⟨.data, "b"⟩, some ⟨.config, ""⟩][i]?.getD none
    readCommitted (fun _ => log) 3 2 = .ok 3 "b" ∧
    readCommitted (fun _ => log) 2 2 = .noMore ∧
    readCommitted (fun k i => if k = 0 then log i else none) 4 2 = .deleted 3 ∧
    readCommitted (fun _ => log) 4 4 = .noMore := by decide

/-- C50. `terms` are the terms of the log in index order, which never decrease. If the node starts,
its term is at least every one of them and is what the meta storage holds; if the stored term was
behind the log it starts in a fresh term, larger than every term of the log, without a vote. -/
theorem C50_term_after_restart (stored : Option (Nat × Option P)) (terms : List Nat)
    (hmono : terms.Pairwise (· ≤ ·)) (setOk : Bool) (s : Started P)
    (h : initMeta stored (terms.getLast?.getD 0) setOk = some s) :
    (∀ t ∈ terms, t ≤ s.term) ∧ s.storedTerm = s.term ∧ s.storedVote = s.vote ∧
    ∃ t v, stored = some (t, v) ∧ t ≤ s.term ∧
      ((∃ x ∈ terms, t < x) → s.vote = none ∧ ∀ x ∈ terms, x < s.term) ∧
      ((∀ x ∈ terms, x ≤ t) → s.term = t ∧ s.vote = v) := by
  have hlast : ∀ t ∈ terms, t ≤ terms.getLast?.getD 0 := by
    intro t ht
    have hne : terms ≠ [] := by intro h; rw [h] at ht; simp at ht
    rw [List.getLast?_eq_some_getLast hne, Option.getD_some]
    have hsplit := List.dropLast_concat_getLast hne
    rw [← hsplit] at ht hmono
    rw [List.pairwise_append] at hmono
    rcases List.mem_append.mp ht with ht | ht
    · exact hmono.2.2 t ht _ (by simp)
    · simp at ht; omega
  have hmem : 0 < terms.getLast?.getD 0 → terms.getLast?.getD 0 ∈ terms := by
    intro hp
    cases hg : terms.getLast? with
    | none => rw [hg] at hp; simp at hp
    | some x => simp only [Option.getD_some]; exact List.mem_of_getLast? hg
  unfold initMeta at h
  cases stored with
  | none => simp at h
  | some tv =>
    obtain ⟨t, v⟩ := tv
    simp only at h
    split at h
    · next hlt =>
      split at h
      · simp only [Option.some.injEq] at h
        subst h
        refine ⟨fun x hx => ?_, rfl, rfl, t, v, rfl, ?_, ?_, ?_⟩
        · have := hlast x hx; show x ≤ _ + 1; omega
        · show t ≤ _ + 1; omega
        · intro _
          refine ⟨rfl, fun x hx => ?_⟩
          have := hlast x hx; show x < _ + 1; omega
        · intro hall
          have := hall _ (hmem (by omega)); omega
      · simp at h
    · next hge =>
      simp only [Option.some.injEq] at h
      subst h
      refine ⟨fun x hx => ?_, rfl, rfl, t, v, rfl, Nat.le_refl _, ?_, ?_⟩
      · have := hlast x hx; show x ≤ t; omega
      · rintro ⟨x, hx, hlt⟩
        have := hlast x hx; omega
      · intro _; exact ⟨rfl, rfl⟩

/-- The meta is behind the log: fresh term 6. The meta is level with it: nothing changes. -/
example : initMeta (some (3, some 1)) ([1, 1, 5].getLast?.getD 0) true = some ⟨6, none, 6, none⟩ ∧
    initMeta (some (5, some 1)) ([1, 1, 5].getLast?.getD 0) true = some ⟨5, some 1, 5, some 1⟩ ∧
    [1, 1, 5].Pairwise (· ≤ ·) := by decide

/-- C50. If the corrected pair cannot be stored the node does not start. -/
theorem C50_no_start_without_persisting (t : Nat) (v : Option P) (lastTerm : Nat) (h : t < lastTerm) :
    initMeta (some (t, v)) lastTerm false = none := by
  simp [initMeta, h]

end Braft.Props
