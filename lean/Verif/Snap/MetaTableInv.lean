import Verif.Snap.MetaTable
/-
Lemmas about the table of files and its bytes.
-/
set_option linter.unusedVariables false
set_option linter.unusedSimpArgs false

namespace Braft.Tab

theorem varint_ne (n : Nat) : ∃ a l, varint n = a :: l := by
  rw [varint]; split
  · exact ⟨_, _, rfl⟩
  · exact ⟨_, _, rfl⟩

theorem readVar_varint (k : Nat) : ∀ (n : Nat) (r : Bytes), 0 < k → n < 128 ^ k → readVar k (varint n ++ r) = some (n, r) := by
  induction k with
  | zero => intro n r h; omega
  | succ k ih =>
    intro n r _ hn
    rw [varint]
    split
    · rename_i h; simp [readVar, h]
    · rename_i h
      have hk : 0 < k := by
        rcases Nat.eq_zero_or_pos k with h0 | h0
        · subst h0; omega
        · exact h0
      have : n / 128 < 128 ^ k := by
        rw [Nat.pow_succ] at hn
        omega
      simp only [List.cons_append, readVar]
      rw [if_neg (by omega), ih (n / 128) r hk this]
      simp only [Option.map_some, Option.some.injEq, Prod.mk.injEq, and_true]
      omega

/-- Fields that can be written. -/
def FOk : Nat × Val → Prop
  | (n, .int v) => 1 ≤ n ∧ n < 2 ^ 28 ∧ v < 2 ^ 64
  | (n, .len b) => 1 ≤ n ∧ n < 2 ^ 28 ∧ b.length < 2 ^ 31
  | (_, .fixed _) => False

theorem takeN_append (b r : Bytes) : takeN b.length (b ++ r) = some (b, r) := by
  unfold takeN
  rw [if_pos (by simp)]
  simp

theorem readField_enc (f : Nat × Val) (r : Bytes) (h : FOk f) : readField (encField f ++ r) = some (f, r) := by
  obtain ⟨n, v⟩ := f
  cases v with
  | int v =>
    obtain ⟨h1, h2, h3⟩ := h
    have e : (128 : Nat) ^ 10 = 1180591620717411303424 := by decide
    unfold readField encField
    rw [List.append_assoc, readVar_varint 10 _ _ (by decide) (by omega)]
    dsimp only
    rw [if_neg (by omega), if_pos (by omega), readVar_varint 10 _ _ (by decide) (by omega)]
    simp only [Option.map_some, Option.some.injEq, Prod.mk.injEq, Val.int.injEq, and_true]
    omega
  | len b =>
    obtain ⟨h1, h2, h3⟩ := h
    have e : (128 : Nat) ^ 10 = 1180591620717411303424 := by decide
    unfold readField encField
    rw [List.append_assoc, readVar_varint 10 _ _ (by decide) (by omega)]
    dsimp only
    rw [if_neg (by omega), if_neg (by omega), if_neg (by omega), if_neg (by omega), if_pos (by omega), List.append_assoc,
      readVar_varint 10 _ _ (by decide) (by omega)]
    dsimp only
    rw [if_neg (by omega), takeN_append]
    simp only [Option.map_some, Option.some.injEq, Prod.mk.injEq, and_true]
    omega
  | fixed b => exact absurd h id

theorem encField_ne (f : Nat × Val) (h : FOk f) : ∃ a l, encField f = a :: l := by
  obtain ⟨n, v⟩ := f
  cases v with
  | int v => obtain ⟨a, l, e⟩ := varint_ne (n * 8); exact ⟨a, l ++ varint v, by simp [encField, e]⟩
  | len b => obtain ⟨a, l, e⟩ := varint_ne (n * 8 + 2); exact ⟨a, l ++ (varint b.length ++ b), by simp [encField, e]⟩
  | fixed b => exact absurd h id

theorem wireN_enc (l : List (Nat × Val)) (h : ∀ f ∈ l, FOk f) : ∀ k, (enc l).length ≤ k → wireN k (enc l) = some l := by
  induction l with
  | nil => intro k _; cases k <;> rfl
  | cons f l ih =>
    intro k hk
    obtain ⟨a, t, e⟩ := encField_ne f (h f List.mem_cons_self)
    have e1 : enc (f :: l) = encField f ++ enc l := by simp [enc]
    rw [e1] at hk ⊢
    cases k with
    | zero => rw [e] at hk; simp at hk
    | succ k =>
      have e2 := readField_enc f (enc l) (h f List.mem_cons_self)
      rw [e] at e2 hk ⊢
      simp only [List.cons_append] at e2 ⊢
      rw [wireN]
      · rw [e2]
        dsimp only
        rw [ih (fun g hg => h g (List.mem_cons_of_mem _ hg)) k (by simp at hk; omega)]
        rfl
      · intro hc; cases hc

theorem wire_enc (l : List (Nat × Val)) (h : ∀ f ∈ l, FOk f) : wire (enc l) = some l := wireN_enc l h _ (Nat.le_refl _)

/-! ### Sizes -/

theorem enc_mem {l : List (Nat × Val)} {n : Nat} {b : Bytes} (h : (n, Val.len b) ∈ l) : b.length ≤ (enc l).length := by
  induction l with
  | nil => cases h
  | cons f l ih =>
    have e1 : (enc (f :: l)).length = (encField f).length + (enc l).length := by simp [enc]
    rcases List.mem_cons.mp h with h1 | h1
    · rw [e1, ← h1]
      simp only [encField, List.length_append]
      omega
    · have := ih h1; omega

/-- Numbers of fields in range, 64 bit integers. -/
def FNum : Nat × Val → Prop
  | (n, .int v) => 1 ≤ n ∧ n < 2 ^ 28 ∧ v < 2 ^ 64
  | (n, .len b) => 1 ≤ n ∧ n < 2 ^ 28
  | (_, .fixed _) => False

theorem fok_of {l : List (Nat × Val)} (h : ∀ f ∈ l, FNum f) (hl : (enc l).length < 2 ^ 31) : ∀ f ∈ l, FOk f := by
  rintro ⟨n, v⟩ hf
  have h1 := h _ hf
  cases v with
  | int v => exact h1
  | len b => exact ⟨h1.1, h1.2, Nat.lt_of_le_of_lt (enc_mem hf) hl⟩
  | fixed b => exact h1

theorem opt_mem {α : Type} {n : Nat} {g : α → Val} {o : Option α} {f : Nat × Val} (h : f ∈ opt n g o) :
    ∃ a, o = some a ∧ f = (n, g a) := by
  cases o with
  | none => cases h
  | some a => exact ⟨a, rfl, by simpa [opt] using h⟩

theorem FileMeta.fnum (m : FileMeta) : ∀ f ∈ m.fields, FNum f := by
  intro f hf
  simp only [FileMeta.fields, List.mem_append] at hf
  rcases hf with h | h | h
  · obtain ⟨a, _, rfl⟩ := opt_mem h; simp [FNum]
  · obtain ⟨a, _, rfl⟩ := opt_mem h; cases a <;> simp [FNum, Source.code]
  · obtain ⟨a, _, rfl⟩ := opt_mem h; simp [FNum]

/-- Index and term have 64 bits. -/
def SnapMeta.Num (m : SnapMeta) : Prop := (∀ i ∈ m.index, i < 2 ^ 64) ∧ (∀ i ∈ m.term, i < 2 ^ 64)

theorem SnapMeta.fnum (m : SnapMeta) (h : m.Num) : ∀ f ∈ m.fields, FNum f := by
  intro f hf
  simp only [SnapMeta.fields, List.mem_append, List.mem_map] at hf
  rcases hf with h1 | h1 | ⟨a, _, rfl⟩ | ⟨a, _, rfl⟩
  · obtain ⟨a, ha, rfl⟩ := opt_mem h1; have := h.1 a (by simp [ha]); simp [FNum, this]
  · obtain ⟨a, ha, rfl⟩ := opt_mem h1; have := h.2 a (by simp [ha]); simp [FNum, this]
  · simp [FNum]
  · simp [FNum]

theorem PbFile.fnum (m : PbFile) : ∀ f ∈ m.fields, FNum f := by
  intro f hf
  simp only [PbFile.fields, List.mem_append] at hf
  rcases hf with h | h
  · obtain ⟨a, _, rfl⟩ := opt_mem h; simp [FNum]
  · obtain ⟨a, _, rfl⟩ := opt_mem h; simp [FNum]

theorem Pb.fnum (m : Pb) : ∀ f ∈ m.fields, FNum f := by
  intro f hf
  simp only [Pb.fields, List.mem_append, List.mem_map] at hf
  rcases hf with h | ⟨a, _, rfl⟩
  · obtain ⟨a, _, rfl⟩ := opt_mem h; simp [FNum]
  · simp [FNum]

/-! ### Round trips -/

theorem FileMeta.fold (m : FileMeta) : m.fields.foldl FileMeta.set .empty = m := by
  obtain ⟨u, s, c⟩ := m
  rcases s with _ | s
  · cases u <;> cases c <;> rfl
  · cases s <;> cases u <;> cases c <;> simp [FileMeta.fields, opt, FileMeta.set, FileMeta.empty, Source.code]

theorem fold_peers (l : List Bytes) (m : SnapMeta) :
    (l.map (fun p => (3, Val.len p))).foldl SnapMeta.set m = { m with peers := m.peers ++ l } := by
  induction l generalizing m with
  | nil => simp
  | cons a l ih => simp only [List.map_cons, List.foldl_cons]; rw [ih]; simp [SnapMeta.set]

theorem fold_old (l : List Bytes) (m : SnapMeta) :
    (l.map (fun p => (4, Val.len p))).foldl SnapMeta.set m = { m with old := m.old ++ l } := by
  induction l generalizing m with
  | nil => simp
  | cons a l ih => simp only [List.map_cons, List.foldl_cons]; rw [ih]; simp [SnapMeta.set]

theorem SnapMeta.fold (m : SnapMeta) : m.fields.foldl SnapMeta.set .empty = m := by
  obtain ⟨i, t, p, o⟩ := m
  unfold SnapMeta.fields
  rw [List.foldl_append, List.foldl_append, List.foldl_append, fold_peers, fold_old]
  cases i <;> cases t <;> simp [opt, SnapMeta.set, SnapMeta.empty]

theorem PbFile.foldO_fields (f : PbFile) (h : (enc f.fields).length < 2 ^ 31) : foldO PbFile.set .empty f.fields = some f := by
  obtain ⟨n, i⟩ := f
  cases i with
  | none => cases n <;> simp [PbFile.fields, opt, foldO, PbFile.set, PbFile.empty]
  | some m =>
    have hl : (enc m.fields).length < 2 ^ 31 :=
      Nat.lt_of_le_of_lt (enc_mem (n := 2) (by simp [PbFile.fields, opt])) h
    have hw := wire_enc m.fields (fok_of m.fnum hl)
    have hf := m.fold
    cases n <;> simp [PbFile.fields, opt, foldO, PbFile.set, PbFile.empty, hw, hf]

theorem foldO_append {α β : Type} (f : β → α → Option β) (l l' : List α) (b : β) :
    foldO f b (l ++ l') = (match foldO f b l with | none => none | some c => foldO f c l') := by
  induction l generalizing b with
  | nil => rfl
  | cons a l ih => simp only [List.cons_append, foldO]; cases f b a <;> simp [ih]

theorem foldO_files (l : List PbFile) (m : Pb) (h : ∀ f ∈ l, (enc f.fields).length < 2 ^ 31) :
    foldO Pb.set m (l.map (fun f => (2, Val.len (enc f.fields)))) = some { m with files := m.files ++ l } := by
  induction l generalizing m with
  | nil => simp [foldO]
  | cons f l ih =>
    have hl := h f List.mem_cons_self
    have hw := wire_enc f.fields (fok_of f.fnum hl)
    have hs : Pb.set m (2, Val.len (enc f.fields)) = some { m with files := m.files ++ [f] } := by
      simp [Pb.set, hw, f.foldO_fields hl]
    simp only [List.map_cons, foldO, hs]
    rw [ih _ (fun g hg => h g (List.mem_cons_of_mem _ hg))]
    simp

theorem parse_serialize {m : Pb} {b : Bytes} (hn : ∀ s ∈ m.info, s.Num) (h : m.serialize = some b) : parse b = some m := by
  unfold Pb.serialize at h
  split at h
  · rename_i hi
    cases h
    obtain ⟨hi, hl⟩ := hi
    have hw := wire_enc m.fields (fok_of m.fnum hl)
    unfold parse
    rw [hw]
    dsimp only
    have hfl : ∀ f ∈ m.files, (enc f.fields).length < 2 ^ 31 := fun f hf =>
      Nat.lt_of_le_of_lt (enc_mem (n := 2) (by simp only [Pb.fields, List.mem_append, List.mem_map]; exact Or.inr ⟨f, hf, rfl⟩)) hl
    have : foldO Pb.set .empty m.fields = some m := by
      unfold Pb.fields
      rw [foldO_append]
      cases hs : m.info with
      | none =>
        simp only [opt, foldO]
        rw [foldO_files _ _ hfl]
        obtain ⟨i, f⟩ := m
        simp only at hs
        simp [Pb.empty, hs]
      | some s =>
        have hsl : (enc s.fields).length < 2 ^ 31 :=
          Nat.lt_of_le_of_lt (enc_mem (n := 1) (by simp [Pb.fields, hs, opt])) hl
        have hsw := wire_enc s.fields (fok_of (s.fnum (hn s (by simp [hs]))) hsl)
        have h1 : foldO Pb.set .empty (opt 1 (fun s => Val.len (enc s.fields)) (some s)) = some ⟨some s, []⟩ := by
          simp [opt, foldO, Pb.set, hsw, Pb.empty, s.fold]
        rw [h1]
        dsimp only
        rw [foldO_files _ _ hfl]
        obtain ⟨i, f⟩ := m
        simp only at hs
        simp [hs]
    rw [this]
    dsimp only
    rw [if_pos hi]
  · cases h

/-! ### The map -/

/-- Keys in increasing order. -/
def Sorted (l : List (Bytes × FileMeta)) : Prop := l.Pairwise (fun a b => a.1 < b.1)

theorem nlt_self (k : Bytes) : ¬ k < k := List.lt_irrefl k

theorem lt_or (k k' : Bytes) (h : ¬ k < k') (hne : k ≠ k') : k' < k := by
  rcases Std.lt_trichotomy k k' with h1 | h1 | h1
  · exact absurd h1 h
  · exact absurd h1 hne
  · exact h1

theorem mem_put {k : Bytes} {v : FileMeta} {l : List (Bytes × FileMeta)} {x : Bytes × FileMeta} (h : x ∈ put k v l) :
    x = (k, v) ∨ x ∈ l := by
  induction l with
  | nil => simpa [put] using h
  | cons a l ih =>
    obtain ⟨k', v'⟩ := a
    simp only [put] at h
    split at h
    · rcases List.mem_cons.mp h with h1 | h1
      · exact Or.inl h1
      · exact Or.inr h1
    · split at h
      · rcases List.mem_cons.mp h with h1 | h1
        · exact Or.inl h1
        · exact Or.inr (List.mem_cons_of_mem _ h1)
      · rcases List.mem_cons.mp h with h1 | h1
        · exact Or.inr (by rw [h1]; exact List.mem_cons_self)
        · rcases ih h1 with h2 | h2
          · exact Or.inl h2
          · exact Or.inr (List.mem_cons_of_mem _ h2)

theorem sorted_put {k : Bytes} {v : FileMeta} {l : List (Bytes × FileMeta)} (h : Sorted l) : Sorted (put k v l) := by
  induction l with
  | nil => simp [put, Sorted]
  | cons a l ih =>
    obtain ⟨k', v'⟩ := a
    have h1 := List.pairwise_cons.mp h
    simp only [put]
    split
    · rename_i hlt
      refine List.pairwise_cons.mpr ⟨?_, h⟩
      intro x hx
      rcases List.mem_cons.mp hx with h2 | h2
      · rw [h2]; exact hlt
      · exact List.lt_trans hlt (h1.1 x h2)
    · rename_i hlt
      split
      · rename_i he
        subst he
        exact List.pairwise_cons.mpr ⟨fun x hx => h1.1 x hx, h1.2⟩
      · rename_i hne
        refine List.pairwise_cons.mpr ⟨?_, ih h1.2⟩
        intro x hx
        rcases mem_put hx with h2 | h2
        · rw [h2]; exact lt_or _ _ hlt hne
        · exact h1.1 x h2

theorem find_put (k k' : Bytes) (v : FileMeta) (l : List (Bytes × FileMeta)) :
    find k' (put k v l) = if k' = k then some v else find k' l := by
  induction l with
  | nil => simp [put, find]
  | cons a l ih =>
    obtain ⟨k1, v1⟩ := a
    simp only [put]
    split
    · simp [find]
    · split
      · rename_i he
        subst he
        simp only [find]
        by_cases h : k' = k <;> simp [h]
      · rename_i hne
        simp only [find]
        rw [ih]
        by_cases h : k' = k1
        · subst h
          rw [if_pos rfl, if_neg (fun e => hne e.symm)]
          simp
        · simp [h]

theorem mem_cut {k : Bytes} {l : List (Bytes × FileMeta)} {x : Bytes × FileMeta} (h : x ∈ cut k l) : x ∈ l := by
  induction l with
  | nil => exact h
  | cons a l ih =>
    obtain ⟨k', v'⟩ := a
    simp only [cut] at h
    split at h
    · exact List.mem_cons_of_mem _ h
    · rcases List.mem_cons.mp h with h1 | h1
      · rw [h1]; exact List.mem_cons_self
      · exact List.mem_cons_of_mem _ (ih h1)

theorem sorted_cut {k : Bytes} {l : List (Bytes × FileMeta)} (h : Sorted l) : Sorted (cut k l) := by
  induction l with
  | nil => exact h
  | cons a l ih =>
    obtain ⟨k', v'⟩ := a
    have h1 := List.pairwise_cons.mp h
    simp only [cut]
    split
    · exact h1.2
    · exact List.pairwise_cons.mpr ⟨fun x hx => h1.1 x (mem_cut hx), ih h1.2⟩

theorem find_none {k : Bytes} {l : List (Bytes × FileMeta)} (h : ∀ x ∈ l, x.1 ≠ k) : find k l = none := by
  induction l with
  | nil => rfl
  | cons a l ih =>
    obtain ⟨k', v'⟩ := a
    simp only [find]
    rw [if_neg (fun e => h _ List.mem_cons_self e.symm)]
    exact ih (fun x hx => h x (List.mem_cons_of_mem _ hx))

theorem find_cut {k k' : Bytes} {l : List (Bytes × FileMeta)} (h : Sorted l) :
    find k' (cut k l) = if k' = k then none else find k' l := by
  induction l with
  | nil => simp [cut, find]
  | cons a l ih =>
    obtain ⟨k1, v1⟩ := a
    have h1 := List.pairwise_cons.mp h
    simp only [cut]
    split
    · rename_i he
      subst he
      by_cases h2 : k' = k
      · subst h2
        rw [if_pos rfl]
        exact find_none (fun x hx e => nlt_self k' (by have := h1.1 x hx; rwa [e] at this))
      · simp [find, h2]
    · rename_i hne
      simp only [find]
      rw [ih h1.2]
      by_cases h2 : k' = k1
      · subst h2
        rw [if_pos rfl, if_neg (fun e => hne e.symm)]
        simp
      · simp [h2]

theorem find_mem {k : Bytes} {l : List (Bytes × FileMeta)} : k ∈ l.map Prod.fst ↔ (find k l).isSome = true := by
  induction l with
  | nil => simp [find]
  | cons a l ih =>
    obtain ⟨k', v'⟩ := a
    simp only [List.map_cons, List.mem_cons, find]
    by_cases h : k = k'
    · simp [h]
    · simp [h, ih]

theorem put_last {k : Bytes} {v : FileMeta} {l : List (Bytes × FileMeta)} (h : ∀ x ∈ l, x.1 < k) : put k v l = l ++ [(k, v)] := by
  induction l with
  | nil => rfl
  | cons a l ih =>
    obtain ⟨k', v'⟩ := a
    have h1 := h _ List.mem_cons_self
    simp only [put]
    rw [if_neg (fun h2 => nlt_self k (List.lt_trans h2 h1)), if_neg (fun e => nlt_self k (by subst e; exact h1)),
      ih (fun x hx => h x (List.mem_cons_of_mem _ hx))]
    rfl

theorem fold_put (l acc : List (Bytes × FileMeta)) (h : Sorted (acc ++ l)) :
    l.foldl (fun a f => put f.1 f.2 a) acc = acc ++ l := by
  induction l generalizing acc with
  | nil => simp
  | cons a l ih =>
    simp only [List.foldl_cons]
    have h1 : ∀ x ∈ acc, x.1 < a.1 := fun x hx => (List.pairwise_append.mp h).2.2 x hx a List.mem_cons_self
    rw [put_last h1, ih _ (by simpa using h)]
    simp

theorem sorted_fold {α : Type} (g : α → Bytes) (h : α → FileMeta) (l : List α) (acc : List (Bytes × FileMeta)) (hs : Sorted acc) :
    Sorted (l.foldl (fun a f => put (g f) (h f) a) acc) := by
  induction l generalizing acc with
  | nil => exact hs
  | cons a l ih => exact ih _ (sorted_put hs)

theorem Table.sorted_op {t : Table} (h : Sorted t.files) (o : Op) : Sorted (t.op o).1.files := by
  cases o with
  | add k v => unfold Table.op Table.add; dsimp only; split; exact h; exact sorted_put h
  | remove k => unfold Table.op Table.remove; dsimp only; split; exact h; exact sorted_cut h
  | setMeta m => exact h

theorem Table.sorted_ops {t : Table} (h : Sorted t.files) (l : List Op) : Sorted (t.ops l).files := by
  induction l generalizing t with
  | nil => exact h
  | cons o l ih => exact ih (t := (t.op o).1) (Table.sorted_op h o)

theorem Table.ofPb_toPb (t : Table) (h : Sorted t.files) (r : Bool) :
    Table.ofPb (t.toPb r) = ⟨t.meta?.getD .empty, t.files.map (fun f => (f.1, if r then { f.2 with source := none } else f.2))⟩ := by
  unfold Table.ofPb Table.toPb
  dsimp only
  have e : ∀ (l : List (Bytes × FileMeta)) (acc : List (Bytes × FileMeta)),
      (l.map (fun f => (⟨some f.1, some (if r then { f.2 with source := none } else f.2)⟩ : PbFile))).foldl
        (fun l f => put (f.name.getD []) (f.info.getD .empty) l) acc =
      (l.map (fun f => (f.1, if r then { f.2 with source := none } else f.2))).foldl (fun a f => put f.1 f.2 a) acc := by
    intro l
    induction l with
    | nil => intro acc; rfl
    | cons a l ih => intro acc; simp only [List.map_cons, List.foldl_cons]; exact ih _
  rw [e, fold_put _ [] ?_]
  · rfl
  · simp only [List.nil_append]
    unfold Sorted at h ⊢
    rw [List.pairwise_map]
    exact h

theorem toPb_init (t : Table) (r : Bool) : (t.toPb r).init = true := by
  unfold Table.toPb Pb.init Table.meta?
  by_cases h : t.info.init = true
  · simp [h]
  · simp [h]

end Braft.Tab
