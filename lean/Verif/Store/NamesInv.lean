import Verif.Store.Names
/-
Lemmas about names on disk.
-/
set_option linter.unusedVariables false
set_option linter.unusedSimpArgs false

namespace Braft.Names
open Braft.Text

def I64 (i : Int) : Prop := -(2 ^ 63) ≤ i ∧ i < 2 ^ 63

theorem printNat_length : ∀ (w n : Nat), n < 10 ^ (w + 1) → (printNat n).length ≤ w + 1 := by
  intro w
  induction w with
  | zero => intro n h; rw [printNat]; rw [dif_pos (by simpa using h)]; simp
  | succ w ih =>
    intro n h
    rw [printNat]
    split
    · simp
    · have : n / 10 < 10 ^ (w + 1) := by
        rw [Nat.pow_succ] at h
        omega
      have := ih _ this
      simp only [List.length_append, List.length_cons, List.length_nil]
      omega

theorem zeros_length {w n : Nat} (h : n < 10 ^ (w + 1)) : (zeros (w + 1) n).length = w + 1 := by
  have := printNat_length w n h
  simp only [zeros, List.length_append, List.length_replicate]
  omega

theorem zeros_digits (w n : Nat) : ∀ c ∈ zeros w n, isDigit c = true := by
  intro c hc
  simp only [zeros, List.mem_append, List.mem_replicate] at hc
  rcases hc with ⟨_, rfl⟩ | hc
  · decide
  · exact printNat_digits n c hc

theorem valOf_zeros (w n : Nat) : valOf (zeros w n) = n := by
  have key : ∀ k, (List.replicate k '0').foldl (fun v c => v * 10 + digitVal c) 0 = 0 := by
    intro k
    induction k with
    | zero => rfl
    | succ k ih =>
      rw [List.replicate_succ, List.foldl_cons]
      exact ih
  unfold zeros valOf
  rw [List.foldl_append, key]
  exact valOf_printNat n

theorem takeWhile_all {p : Char → Bool} {l : Txt} (h : ∀ c ∈ l, p c = true) : l.takeWhile p = l := by
  induction l with
  | nil => rfl
  | cons a l ih =>
    rw [List.takeWhile_cons, if_pos (h a List.mem_cons_self), ih (fun c hc => h c (List.mem_cons_of_mem _ hc))]

theorem digs_zeros {w n : Nat} (h : n < 10 ^ (w + 1)) (r : Txt) : digs (w + 1) (zeros (w + 1) n ++ r) = some (n, r) := by
  have hl := zeros_length h
  unfold digs
  have e : (zeros (w + 1) n ++ r).take (w + 1) = zeros (w + 1) n := by
    rw [List.take_append_of_le_length (by omega), List.take_of_length_le (by omega)]
  rw [e, takeWhile_all (zeros_digits _ _)]
  dsimp only
  have hne : (zeros (w + 1) n).isEmpty = false := by
    cases hz : zeros (w + 1) n with
    | nil => rw [hz] at hl; simp at hl
    | cons a l => rfl
  rw [hne, valOf_zeros, List.drop_left]
  rfl

theorem zeros_head {w n : Nat} (h : n < 10 ^ (w + 1)) : ∃ c r, zeros (w + 1) n = c :: r ∧ isDigit c = true := by
  have hl := zeros_length h
  cases hz : zeros (w + 1) n with
  | nil => rw [hz] at hl; simp at hl
  | cons a l => exact ⟨a, l, rfl, zeros_digits (w + 1) n a (by rw [hz]; exact List.mem_cons_self)⟩

theorem clamp_id {i : Int} (h : I64 i) : clamp i = i := by
  obtain ⟨h1, h2⟩ := h
  unfold clamp
  rw [if_neg (by omega), if_neg (by omega)]

theorem scan_pad {i : Int} (h : I64 i) (r : Txt) : scan (pad i ++ r) = some (i, r) := by
  obtain ⟨h1, h2⟩ := h
  have e19 : (10 : Nat) ^ (18 + 1) = 10000000000000000000 := by decide
  have e20 : (10 : Nat) ^ (19 + 1) = 100000000000000000000 := by decide
  unfold pad
  split
  · rename_i hneg
    have hd := digs_zeros (w := 18) (n := i.natAbs) (by omega) r
    unfold scan
    have e : (('-' :: zeros 19 i.natAbs) ++ r).dropWhile isSpace = '-' :: (zeros 19 i.natAbs ++ r) := by
      rw [List.cons_append, List.dropWhile_cons]
      rw [if_neg (by decide)]
    rw [e]
    have hd' : digs 19 (zeros 19 i.natAbs ++ r) = some (i.natAbs, r) := hd
    show Option.map (fun x : Nat × Txt => (clamp (-(x.1 : Int)), x.2)) (digs 19 (zeros 19 i.natAbs ++ r)) = some (i, r)
    rw [hd']
    simp only [Option.map_some]
    have : -((i.natAbs : Nat) : Int) = i := by omega
    rw [this, clamp_id ⟨h1, h2⟩]
  · rename_i hpos
    have hd := digs_zeros (w := 19) (n := i.natAbs) (by omega) r
    obtain ⟨c, t, hz, hc⟩ := zeros_head (w := 19) (n := i.natAbs) (by omega)
    unfold scan
    rw [hz] at hd ⊢
    have e : ((c :: t) ++ r).dropWhile isSpace = c :: (t ++ r) := by
      rw [List.cons_append, List.dropWhile_cons, digit_not_space hc]
      rfl
    rw [e]
    have h3 : c ≠ '-' := by intro hh; subst hh; exact absurd hc (by decide)
    have h4 : c ≠ '+' := by intro hh; subst hh; exact absurd hc (by decide)
    have : (digs 20 (c :: (t ++ r))) = some (i.natAbs, r) := hd
    split
    · rename_i hh; cases hh; exact absurd rfl h3
    · rename_i hh; cases hh; exact absurd rfl h4
    · rw [this]
      simp only [Option.map_some]
      have : ((i.natAbs : Nat) : Int) = i := by omega
      rw [this, clamp_id ⟨h1, h2⟩]

theorem digs_none {w : Nat} {c : Char} {r : Txt} (h : isDigit c = false) : digs (w + 1) (c :: r) = none := by
  unfold digs
  simp [List.take_succ_cons, List.takeWhile_cons, h]

theorem scan_none {c : Char} {r : Txt} (h1 : isSpace c = false) (h2 : c ≠ '-') (h3 : c ≠ '+') (h4 : isDigit c = false) :
    scan (c :: r) = none := by
  unfold scan
  rw [List.dropWhile_cons, if_neg (by simp [h1])]
  split
  · rename_i hh; cases hh; exact absurd rfl h2
  · rename_i hh; cases hh; exact absurd rfl h3
  · rw [digs_none (w := 19) h4]; rfl

theorem lit_append (p r : Txt) : lit p (p ++ r) = some r := by
  unfold lit
  rw [if_pos (by simp), List.drop_left]

/-! ### Suffixes -/

theorem pad_chars {i : Int} : ∀ c ∈ pad i, isDigit c = true ∨ c = '-' := by
  intro c hc
  unfold pad at hc
  split at hc
  · rcases List.mem_cons.mp hc with h | h
    · exact Or.inr h
    · exact Or.inl (zeros_digits _ _ c h)
  · exact Or.inl (zeros_digits _ _ c hc)

theorem pad_ne (i : Int) : pad i ≠ [] := by
  unfold pad zeros
  split
  · simp
  · simp [printNat_ne_nil]

/-- A text whose last character is not `p` does not end in `.tmp`. -/
theorem no_tmp {a b : Txt} (hb : b ≠ []) (h : 'p' ∉ b) : ".tmp".toList.isSuffixOf (a ++ b) = false := by
  cases hc : ".tmp".toList.isSuffixOf (a ++ b) with
  | false => rfl
  | true =>
    rw [List.isSuffixOf_iff_suffix] at hc
    obtain ⟨t, ht⟩ := hc
    have h1 : (t ++ ".tmp".toList).getLast? = some 'p' := by
      rw [List.getLast?_append]; rfl
    rw [ht, List.getLast?_append] at h1
    cases hl : b.getLast? with
    | none => exact absurd (List.getLast?_eq_none_iff.mp hl) hb
    | some x =>
      rw [hl] at h1
      simp at h1
      subst h1
      exact absurd (List.mem_of_getLast? hl) h

theorem pad_no {i : Int} {c : Char} (h1 : isDigit c = false) (h2 : c ≠ '-') : c ∉ pad i := by
  intro hc
  rcases pad_chars c hc with h | h
  · rw [h1] at h; cases h
  · exact h2 h

/-! ### Sorted lists -/

theorem putSeg_mem {f l : Int} {r : List (Int × Int)} {x : Int × Int} :
    x ∈ putSeg f l r → x = (f, l) ∨ (x ∈ r) := by
  induction r with
  | nil => intro h; simpa [putSeg] using h
  | cons a r ih =>
    obtain ⟨f', l'⟩ := a
    simp only [putSeg]
    split
    · intro h; simpa using h
    · split
      · intro h; rcases List.mem_cons.mp h with h | h
        · exact Or.inl h
        · exact Or.inr (List.mem_cons_of_mem _ h)
      · intro h; rcases List.mem_cons.mp h with h | h
        · exact Or.inr (by rw [h]; exact List.mem_cons_self)
        · rcases ih h with h | h
          · exact Or.inl h
          · exact Or.inr (List.mem_cons_of_mem _ h)

theorem putSeg_self (f l : Int) (r : List (Int × Int)) : (f, l) ∈ putSeg f l r := by
  induction r with
  | nil => simp [putSeg]
  | cons a r ih =>
    obtain ⟨f', l'⟩ := a
    simp only [putSeg]
    split
    · exact List.mem_cons_self
    · split
      · exact List.mem_cons_self
      · exact List.mem_cons_of_mem _ ih

theorem putSeg_keep {f l : Int} {r : List (Int × Int)} {x : Int × Int} (h : x ∈ r) (hne : x.1 ≠ f ∨ x = (f, l)) :
    x ∈ putSeg f l r := by
  induction r with
  | nil => cases h
  | cons a r ih =>
    obtain ⟨f', l'⟩ := a
    simp only [putSeg]
    split
    · exact List.mem_cons_of_mem _ h
    · split
      · rename_i he
        rcases List.mem_cons.mp h with h | h
        · subst h
          rcases hne with hne | hne
          · exact absurd he.symm hne
          · rw [hne]; exact List.mem_cons_self
        · exact List.mem_cons_of_mem _ h
      · rcases List.mem_cons.mp h with h | h
        · rw [h]; exact List.mem_cons_self
        · exact List.mem_cons_of_mem _ (ih h)

def SegSorted (r : List (Int × Int)) : Prop := r.Pairwise (fun a b => a.1 < b.1)

theorem putSeg_sorted {f l : Int} {r : List (Int × Int)} (h : SegSorted r) : SegSorted (putSeg f l r) := by
  induction r with
  | nil => simp [putSeg, SegSorted]
  | cons a r ih =>
    obtain ⟨f', l'⟩ := a
    have h1 := List.pairwise_cons.mp h
    simp only [putSeg]
    split
    · rename_i hlt
      refine List.pairwise_cons.mpr ⟨fun x hx => ?_, h⟩
      rcases List.mem_cons.mp hx with h2 | h2
      · rw [h2]; exact hlt
      · have := h1.1 x h2; dsimp only at this ⊢; omega
    · split
      · rename_i he
        subst he
        exact List.pairwise_cons.mpr ⟨fun x hx => h1.1 x hx, h1.2⟩
      · refine List.pairwise_cons.mpr ⟨fun x hx => ?_, ih h1.2⟩
        rcases putSeg_mem hx with h2 | h2
        · rw [h2]; dsimp only; omega
        · exact h1.1 x h2

theorem mem_putIdx {i j : Int} {r : List Int} : j ∈ putIdx i r ↔ j = i ∨ j ∈ r := by
  induction r with
  | nil => simp [putIdx]
  | cons a r ih =>
    simp only [putIdx]
    split
    · simp
    · split
      · rename_i h; subst h; simp
      · simp only [List.mem_cons, ih]
        constructor
        · rintro (h | h | h)
          · exact Or.inr (Or.inl h)
          · exact Or.inl h
          · exact Or.inr (Or.inr h)
        · rintro (h | h | h)
          · exact Or.inr (Or.inl h)
          · exact Or.inl h
          · exact Or.inr (Or.inr h)

theorem putIdx_sorted {i : Int} {r : List Int} (h : r.Pairwise (· < ·)) : (putIdx i r).Pairwise (· < ·) := by
  induction r with
  | nil => simp [putIdx]
  | cons a r ih =>
    have h1 := List.pairwise_cons.mp h
    simp only [putIdx]
    split
    · rename_i hlt
      refine List.pairwise_cons.mpr ⟨fun x hx => ?_, h⟩
      rcases List.mem_cons.mp hx with h2 | h2
      · rw [h2]; exact hlt
      · have := h1.1 x h2; omega
    · split
      · exact h
      · refine List.pairwise_cons.mpr ⟨fun x hx => ?_, ih h1.2⟩
        rcases mem_putIdx.mp hx with h2 | h2
        · omega
        · exact h1.1 x h2

theorem snaps_fold (l : List Txt) (acc : List Int) (hs : acc.Pairwise (· < ·)) :
    let r := l.foldl (fun a s => match readSnap s with | some i => putIdx i a | none => a) acc
    r.Pairwise (· < ·) ∧ ∀ i, i ∈ r ↔ i ∈ acc ∨ ∃ s ∈ l, readSnap s = some i := by
  induction l generalizing acc with
  | nil => exact ⟨hs, fun i => by simp⟩
  | cons s l ih =>
    simp only [List.foldl_cons]
    cases hr : readSnap s with
    | none =>
      dsimp only
      have := ih acc hs
      refine ⟨this.1, fun i => (this.2 i).trans ?_⟩
      constructor
      · rintro (h | ⟨t, ht, h⟩)
        · exact Or.inl h
        · exact Or.inr ⟨t, List.mem_cons_of_mem _ ht, h⟩
      · rintro (h | ⟨t, ht, h⟩)
        · exact Or.inl h
        · rcases List.mem_cons.mp ht with h1 | h1
          · subst h1; rw [hr] at h; cases h
          · exact Or.inr ⟨t, h1, h⟩
    | some k =>
      dsimp only
      have := ih (putIdx k acc) (putIdx_sorted hs)
      refine ⟨this.1, fun i => (this.2 i).trans ?_⟩
      rw [mem_putIdx]
      constructor
      · rintro ((h | h) | ⟨t, ht, h⟩)
        · exact Or.inr ⟨s, List.mem_cons_self, by rw [hr, h]⟩
        · exact Or.inl h
        · exact Or.inr ⟨t, List.mem_cons_of_mem _ ht, h⟩
      · rintro (h | ⟨t, ht, h⟩)
        · exact Or.inl (Or.inr h)
        · rcases List.mem_cons.mp ht with h1 | h1
          · subst h1; rw [hr] at h; cases h; exact Or.inl (Or.inl rfl)
          · exact Or.inr ⟨t, h1, h⟩

end Braft.Names
