import Verif.Store.SegLog
/-
Specification of the segmented log (an array of entries) and the relation between it and the
directory / memory of `SegmentLogStorage`, with the lemmas about single calls.
-/
set_option linter.unusedVariables false
set_option linter.unusedSimpArgs false
set_option linter.unusedSectionVars false

namespace Braft.Store

variable {K : Type}

/-- The array: entries with consecutive indexes from `first`. -/
structure Arr (K : Type) where
  first : Nat
  ents : List (Entry K)

/-- Number of entries in a list of chunks. -/
def total (cs : List (List (Entry K))) : Nat := cs.flatten.length

/-- The in-memory object for a segment file with entries `es`. -/
def Codec.segOf (c : Codec K) (f : Nat) (o : Bool) (es : List (Entry K)) : Seg :=
  ⟨f, f + es.length - 1, o, c.offsets 0 es, (c.encodeAll es).length⟩

/-- Closed segment files holding `chunks`, the first entry having index `b`. -/
def Codec.files (c : Codec K) : Nat → List (List (Entry K)) → List CFile
  | _, [] => []
  | b, x :: xs => ⟨b, b + x.length - 1, c.encodeAll x⟩ :: c.files (b + x.length) xs

def Codec.segs (c : Codec K) : Nat → List (List (Entry K)) → List Seg
  | _, [] => []
  | b, x :: xs => c.segOf b false x :: c.segs (b + x.length) xs

/-- The directory with closed segments `chunks` starting at index `base`, and perhaps an open segment
`oc` followed by the bytes `tail`. -/
def Codec.mkDisk (c : Codec K) (first base : Nat) (chunks : List (List (Entry K)))
    (oc : Option (List (Entry K))) (tail : Bytes) : Disk :=
  ⟨some first, c.files base chunks,
    match oc with
    | none => []
    | some es => [(base + total chunks, c.encodeAll es ++ tail)]⟩

/-- The entries in the directory. -/
def allOf (chunks : List (List (Entry K))) (oc : Option (List (Entry K))) : List (Entry K) :=
  chunks.flatten ++ oc.getD []

/-- Well-formed chunks: no full segment is empty, all entries fit the format. -/
structure Good (c : Codec K) (base : Nat) (chunks : List (List (Entry K)))
    (oc : Option (List (Entry K))) : Prop where
  pos : 1 ≤ base
  ne : ∀ x ∈ chunks, x ≠ []
  fits : ∀ e ∈ allOf chunks oc, e.Fits c

/-- The directory `d` stands for the array `A`: what a restart may find. -/
def DiskRep (c : Codec K) (d : Disk) (A : Arr K) : Prop :=
  ∃ base chunks oc tail, Good c base chunks oc ∧ Torn c tail ∧ d = c.mkDisk A.first base chunks oc tail ∧
    base ≤ A.first ∧ A.ents = (allOf chunks oc).drop (A.first - base)

/-- The leading segment holds the first index. -/
def Live (first base : Nat) (chunks : List (List (Entry K))) (oc : Option (List (Entry K))) : Prop :=
  match chunks ++ oc.toList with
  | [] => base = first
  | x :: _ => first < base + x.length

/-- Memory and directory of a running storage stand for the array `A`. -/
def Rep (c : Codec K) (m : Mem) (d : Disk) (A : Arr K) : Prop :=
  ∃ base chunks oc, Good c base chunks oc ∧ d = c.mkDisk A.first base chunks oc [] ∧
    base ≤ A.first ∧ Live A.first base chunks oc ∧ A.ents = (allOf chunks oc).drop (A.first - base) ∧
    m = ⟨A.first, A.first + A.ents.length - 1, c.segs base chunks,
          oc.map (c.segOf (base + total chunks) true)⟩

/-! ### Chunks -/

theorem total_nil : total ([] : List (List (Entry K))) = 0 := rfl

theorem total_cons (x : List (Entry K)) (xs : List (List (Entry K))) : total (x :: xs) = x.length + total xs := by
  simp [total]

theorem total_append (a b : List (List (Entry K))) : total (a ++ b) = total a + total b := by
  simp [total]

theorem total_one (x : List (Entry K)) : total [x] = x.length := by simp [total]

theorem files_append (c : Codec K) (b : Nat) (x y : List (List (Entry K))) :
    c.files b (x ++ y) = c.files b x ++ c.files (b + total x) y := by
  induction x generalizing b with
  | nil => simp [Codec.files, total]
  | cons a x ih => simp [Codec.files, ih, total_cons, Nat.add_assoc]

theorem segs_append (c : Codec K) (b : Nat) (x y : List (List (Entry K))) :
    c.segs b (x ++ y) = c.segs b x ++ c.segs (b + total x) y := by
  induction x generalizing b with
  | nil => simp [Codec.segs, total]
  | cons a x ih => simp [Codec.segs, ih, total_cons, Nat.add_assoc]

theorem files_mem (c : Codec K) (b : Nat) (cs : List (List (Entry K))) (hne : ∀ x ∈ cs, x ≠ [])
    (f : CFile) (hf : f ∈ c.files b cs) : b ≤ f.first ∧ f.first < b + total cs := by
  induction cs generalizing b with
  | nil => simp [Codec.files] at hf
  | cons x xs ih =>
    have hx : 0 < x.length := List.length_pos_iff.mpr (hne x (List.mem_cons_self ..))
    rw [total_cons]
    simp only [Codec.files, List.mem_cons] at hf
    rcases hf with hf | hf
    · subst hf; exact ⟨Nat.le_refl _, by show b < _; omega⟩
    · have := ih (b + x.length) (fun y hy => hne y (List.mem_cons_of_mem _ hy)) hf
      omega

theorem filter_files_id (c : Codec K) (b : Nat) (cs : List (List (Entry K))) (hne : ∀ x ∈ cs, x ≠ [])
    (f l : Nat) (h : f < b ∨ b + total cs ≤ f) :
    (c.files b cs).filter (fun x => !isC f l x) = c.files b cs := by
  apply List.filter_eq_self.mpr
  intro x hx
  have := files_mem c b cs hne x hx
  have hn : x.first ≠ f := by omega
  simp [isC, hn]

theorem insertC_end (x : CFile) (l : List CFile) (h : ∀ y ∈ l, y.first < x.first) :
    insertC x l = l ++ [x] := by
  induction l with
  | nil => rfl
  | cons y ys ih =>
    have h1 := h y (List.mem_cons_self ..)
    rw [insertC, if_neg (by omega), ih (fun z hz => h z (List.mem_cons_of_mem _ hz))]
    rfl

theorem segs_mem (c : Codec K) (b : Nat) (cs : List (List (Entry K))) (hne : ∀ x ∈ cs, x ≠ [])
    (f : Seg) (hf : f ∈ c.segs b cs) : b ≤ f.first ∧ f.first < b + total cs := by
  induction cs generalizing b with
  | nil => simp [Codec.segs] at hf
  | cons x xs ih =>
    have hx : 0 < x.length := List.length_pos_iff.mpr (hne x (List.mem_cons_self ..))
    rw [total_cons]
    simp only [Codec.segs, List.mem_cons] at hf
    rcases hf with hf | hf
    · subst hf; exact ⟨Nat.le_refl _, by show b < _; omega⟩
    · have := ih (b + x.length) (fun y hy => hne y (List.mem_cons_of_mem _ hy)) hf
      omega

theorem insertS_end (x : Seg) (l : List Seg) (h : ∀ y ∈ l, y.first < x.first) :
    insertS x l = l ++ [x] := by
  induction l with
  | nil => rfl
  | cons y ys ih =>
    have h1 := h y (List.mem_cons_self ..)
    rw [insertS, if_neg (by omega), ih (fun z hz => h z (List.mem_cons_of_mem _ hz))]
    rfl

/-! ### SegRep and segOf -/

theorem segRep_segOf (c : Codec K) (f : Nat) (o : Bool) (es : List (Entry K)) (hp : 1 ≤ f)
    (hf : ∀ e ∈ es, e.Fits c) : SegRep c (c.segOf f o es) es :=
  ⟨rfl, by show f + es.length - 1 + 1 = f + es.length; omega, hp, rfl, hf⟩

theorem SegRep.eq_segOf (c : Codec K) (s : Seg) (es : List (Entry K)) (h : SegRep c s es) :
    s = c.segOf s.first s.isOpen es := by
  obtain ⟨f, l, o, offs, b⟩ := s
  have h1 := h.offs
  have h2 := h.last
  have h3 := h.bytes
  have h4 := h.pos
  simp only at h1 h2 h3 h4
  subst h1 h3
  have : l = f + es.length - 1 := by omega
  subst this
  rfl

/-! ### Calls -/

theorem applyAll_append (d : Disk) (a b : List Act) : applyAll d (a ++ b) = applyAll (applyAll d a) b := by
  simp [applyAll]

theorem applyAll_cons (d : Disk) (a : Act) (b : List Act) : applyAll d (a :: b) = applyAll (a.apply d) b := rfl

theorem applyAll_nil (d : Disk) : applyAll d [] = d := rfl

theorem crash_append (d' d : Disk) (a b : List Act) (h : Crash d' d (a ++ b)) :
    Crash d' d a ∨ Crash d' (applyAll d a) b := by
  induction a generalizing d with
  | nil => exact Or.inr h
  | cons x xs ih =>
    rcases h with h | h | h
    · exact Or.inl (Or.inl h)
    · exact Or.inl (Or.inr (Or.inl h))
    · rcases ih _ h with h | h
      · exact Or.inl (Or.inr (Or.inr h))
      · exact Or.inr h

theorem crash_self (d : Disk) (a : List Act) : Crash d d a := by
  cases a with
  | nil => rfl
  | cons x xs => exact Or.inl rfl

theorem crash_done (d : Disk) (a : List Act) : Crash (applyAll d a) d a := by
  induction a generalizing d with
  | nil => rfl
  | cons x xs ih => exact Or.inr (Or.inr (ih _))

theorem mk_saveMeta (c : Codec K) (first base : Nat) (cs : List (List (Entry K))) (oc tail) (n : Nat) :
    Act.apply (c.mkDisk first base cs oc tail) (.saveMeta n) = c.mkDisk n base cs oc tail := rfl

theorem mk_rmHead (c : Codec K) (first base : Nat) (x : List (Entry K)) (cs : List (List (Entry K))) (oc tail)
    (hne : ∀ y ∈ x :: cs, y ≠ []) :
    Act.apply (c.mkDisk first base (x :: cs) oc tail) (.rmClosed base (base + x.length - 1)) =
      c.mkDisk first (base + x.length) cs oc tail := by
  have hx : 0 < x.length := List.length_pos_iff.mpr (hne x (List.mem_cons_self ..))
  have h1 : (c.files base (x :: cs)).filter (fun y => !isC base (base + x.length - 1) y) =
      c.files (base + x.length) cs := by
    rw [Codec.files, List.filter_cons]
    rw [if_neg (by simp [isC]), filter_files_id c _ cs (fun y hy => hne y (List.mem_cons_of_mem _ hy)) _ _
      (Or.inl (by omega))]
  simp only [Codec.mkDisk, Act.apply, h1]
  cases oc with
  | none => rfl
  | some es => simp only [total_cons, Nat.add_assoc]

theorem mk_rmLast (c : Codec K) (first base : Nat) (x : List (Entry K)) (cs : List (List (Entry K))) (tail)
    (hne : ∀ y ∈ cs ++ [x], y ≠ []) :
    Act.apply (c.mkDisk first base (cs ++ [x]) none tail)
      (.rmClosed (base + total cs) (base + total cs + x.length - 1)) =
      c.mkDisk first base cs none tail := by
  have h1 : (c.files base (cs ++ [x])).filter
      (fun y => !isC (base + total cs) (base + total cs + x.length - 1) y) = c.files base cs := by
    rw [files_append, List.filter_append,
      filter_files_id c _ cs (fun y hy => hne y (List.mem_append_left _ hy)) _ _ (Or.inr (Nat.le_refl _))]
    simp [Codec.files, isC]
  simp only [Codec.mkDisk, Act.apply, h1]

theorem mk_rmOpen (c : Codec K) (first base : Nat) (cs : List (List (Entry K))) (es tail) :
    Act.apply (c.mkDisk first base cs (some es) tail) (.rmOpen (base + total cs)) =
      c.mkDisk first base cs none [] := by
  simp [Codec.mkDisk, Act.apply]

theorem mk_create (c : Codec K) (first base : Nat) (cs : List (List (Entry K))) (tail : Bytes) :
    Act.apply (c.mkDisk first base cs none tail) (.create (base + total cs)) =
      c.mkDisk first base cs (some []) [] := by
  simp [Codec.mkDisk, Act.apply, Codec.encodeAll]

theorem mk_write (c : Codec K) (first base : Nat) (cs : List (List (Entry K))) (es) (bs : Bytes) :
    Act.apply (c.mkDisk first base cs (some es) []) (.write (base + total cs) bs) =
      c.mkDisk first base cs (some es) bs := by
  simp [Codec.mkDisk, Act.apply]

theorem mk_write_entry (c : Codec K) (first base : Nat) (cs : List (List (Entry K))) (es) (e : Entry K) :
    c.mkDisk first base cs (some es) (c.encode e) = c.mkDisk first base cs (some (es ++ [e])) [] := by
  simp [Codec.mkDisk, encodeAll_append, encodeAll_cons]; rfl

theorem mk_close (c : Codec K) (first base : Nat) (cs : List (List (Entry K))) (es)
    (hne : ∀ y ∈ cs, y ≠ []) (l : Nat) (hl : l = base + total cs + es.length - 1) :
    Act.apply (c.mkDisk first base cs (some es) []) (.close (base + total cs) l) =
      c.mkDisk first base (cs ++ [es]) none [] := by
  subst hl
  simp only [Codec.mkDisk, Act.apply]
  simp only [List.find?_cons, decide_true, List.filter_cons, Bool.not_true, Bool.false_eq_true, if_false,
    List.filter_nil]
  rw [filter_files_id c base cs hne _ _ (Or.inr (Nat.le_refl _)), insertC_end, files_append]
  · simp [Codec.files]
  · intro y hy
    exact (files_mem c base cs hne y hy).2

theorem mk_reopen (c : Codec K) (first base : Nat) (cs : List (List (Entry K))) (es)
    (hne : ∀ y ∈ cs ++ [es], y ≠ []) (l : Nat) (hl : l = base + total cs + es.length - 1) :
    Act.apply (c.mkDisk first base (cs ++ [es]) none []) (.reopen (base + total cs) l) =
      c.mkDisk first base cs (some es) [] := by
  subst hl
  have hf : (c.files base (cs ++ [es])).find? (isC (base + total cs) (base + total cs + es.length - 1)) =
      some ⟨base + total cs, base + total cs + es.length - 1, c.encodeAll es⟩ := by
    rw [files_append, List.find?_append]
    have : (c.files base cs).find? (isC (base + total cs) (base + total cs + es.length - 1)) = none := by
      apply List.find?_eq_none.mpr
      intro y hy
      have := files_mem c base cs (fun y hy => hne y (List.mem_append_left _ hy)) y hy
      have hn : y.first ≠ base + total cs := by omega
      simp [isC, hn]
    rw [this]
    simp [Codec.files, isC]
  have h1 : (c.files base (cs ++ [es])).filter
      (fun y => !isC (base + total cs) (base + total cs + es.length - 1) y) = c.files base cs := by
    rw [files_append, List.filter_append,
      filter_files_id c _ cs (fun y hy => hne y (List.mem_append_left _ hy)) _ _ (Or.inr (Nat.le_refl _))]
    simp [Codec.files, isC]
  simp only [Codec.mkDisk, Act.apply, hf, h1]
  simp

theorem mk_cut (c : Codec K) (first base : Nat) (cs : List (List (Entry K))) (es) (tail : Bytes) (n : Nat) :
    Act.apply (c.mkDisk first base cs (some es) tail)
      (.cut (base + total cs) (c.encodeAll (es.take n)).length) =
      c.mkDisk first base cs (some (es.take n)) [] := by
  have : (c.encodeAll es ++ tail).take (c.encodeAll (es.take n)).length = c.encodeAll (es.take n) := by
    have hs := congrArg c.encodeAll (List.take_append_drop n es).symm
    rw [encodeAll_append] at hs
    rw [hs, List.append_assoc]
    exact take_append_len _ _ _ rfl
  simp [Codec.mkDisk, Act.apply, this]

end Braft.Store
