import Verif.Store.NamesInv
/-
C89: the indexes of segments and snapshots survive in the names of their files.
-/
set_option linter.unusedVariables false
set_option linter.unusedSimpArgs false

namespace Braft.Props.Names
open Braft.Names Braft.Text

/-- What braft makes in a log directory. -/
inductive File where
  | closed (first last : Int)
  | opened (first : Int)
  | logMeta
  /-- A segment on its way out, or log_meta on its way in. -/
  | tmp (f : File)
deriving DecidableEq, Repr

def File.name : File → Txt
  | .closed f l => closedName f l
  | .opened f => openName f
  | .logMeta => "log_meta".toList
  | .tmp f => f.name ++ ".tmp".toList

/-- Indexes are int64. -/
def File.Ok : File → Prop
  | .closed f l => I64 f ∧ I64 l
  | .opened f => I64 f
  | _ => True

/-- C89: what is written as a name is read back from it, for all int64 indexes; with anything after it, too. -/
theorem C89_round_trip {f l i : Int} (hf : I64 f) (hl : I64 l) (hi : I64 i) (rest : Txt) :
    readClosed (closedName f l ++ rest) = some (f, l) ∧ readOpen (openName f ++ rest) = some f ∧
    readSnap (snapName i ++ rest) = some i := by
  refine ⟨?_, ?_, ?_⟩
  · unfold readClosed closedName
    rw [List.append_assoc, lit_append]
    dsimp only
    rw [List.append_assoc, scan_pad hf]
    dsimp only
    rw [List.append_assoc, lit_append]
    dsimp only
    rw [scan_pad hl]
    rfl
  · unfold readOpen openName
    rw [List.append_assoc, lit_append]
    dsimp only
    rw [scan_pad hf]
    rfl
  · unfold readSnap snapName
    rw [List.append_assoc, lit_append]
    dsimp only
    rw [scan_pad hi]
    rfl

/-- C89: no open segment is taken for a closed one, nor the other way round. -/
theorem C89_kinds (f l : Int) (rest : Txt) : readClosed (openName f ++ rest) = none ∧ readOpen (closedName f l ++ rest) = none := by
  constructor
  · unfold readClosed openName
    have e : "log_inprogress_".toList ++ pad f ++ rest = "log_".toList ++ ("inprogress_".toList ++ (pad f ++ rest)) := by
      simp
    rw [e, lit_append]
    dsimp only
    have : scan ("inprogress_".toList ++ (pad f ++ rest)) = none := by
      exact scan_none (c := 'i') (by decide) (by decide) (by decide) (by decide)
    rw [this]
  · unfold readOpen
    have : lit "log_inprogress_".toList (closedName f l ++ rest) = none := by
      unfold lit closedName
      rw [if_neg]
      intro h
      rw [List.isPrefixOf_iff_prefix] at h
      obtain ⟨t, ht⟩ := h
      have e : "log_inprogress_".toList ++ t = "log_".toList ++ ("inprogress_".toList ++ t) := by simp
      rw [e, List.append_assoc] at ht
      have h1 := List.append_cancel_left ht
      cases hp : pad f with
      | nil => exact pad_ne f hp
      | cons c r =>
        rw [hp] at h1
        have h2 : 'i' = c := by
          have := congrArg List.head? h1
          simpa using this
        have h3 := pad_chars (i := f) c (by rw [hp]; exact List.mem_cons_self)
        subst h2
        revert h3
        decide
    rw [this]

/-- C89: different segments and snapshots have different names. -/
theorem C89_injective {f l f' l' : Int} (h1 : I64 f) (h2 : I64 l) (h3 : I64 f') (h4 : I64 l') :
    (closedName f l = closedName f' l' → f = f' ∧ l = l') ∧ (openName f = openName f' → f = f') ∧
    (snapName f = snapName f' → f = f') := by
  have e := C89_round_trip h1 h2 h1 []
  have e' := C89_round_trip h3 h4 h3 []
  simp only [List.append_nil] at e e'
  refine ⟨fun h => ?_, fun h => ?_, fun h => ?_⟩
  · rw [h, e'.1] at e
    have := e.1
    simp only [Option.some.injEq, Prod.mk.injEq] at this
    exact ⟨this.1.symm, this.2.symm⟩
  · have := e.2.1
    rw [h, e'.2.1] at this
    simpa using this.symm
  · have := e.2.2
    rw [h, e'.2.2] at this
    simpa using this.symm

theorem trash_tmp (b : Bool) (f : File) : isTrash b (File.tmp f).name = true := by
  unfold isTrash File.name
  have : ".tmp".toList.isSuffixOf (f.name ++ ".tmp".toList) = true := by
    rw [List.isSuffixOf_iff_suffix]; exact ⟨_, rfl⟩
  rw [this, Bool.or_true]

theorem trash_closed (f l : Int) : isTrash false (closedName f l) = false := by
  unfold isTrash closedName
  rw [Bool.false_and, Bool.false_or]
  have := no_tmp (a := "log_".toList ++ (pad f ++ "_".toList)) (pad_ne l) (pad_no (i := l) (c := 'p') (by decide) (by decide))
  simpa [List.append_assoc] using this

theorem trash_open (f : Int) : isTrash false (openName f) = false := by
  unfold isTrash openName
  rw [Bool.false_and, Bool.false_or]
  exact no_tmp (pad_ne f) (pad_no (by decide) (by decide))

/-- What the listing does with one file of braft's. -/
theorem entry_own (F : Found) (x : File) (hx : x.Ok) :
    entry false F x.name = match x with
      | .closed f l => some { F with segs := putSeg f l F.segs }
      | .opened f => if F.opened.isNone then some { F with opened := some f } else none
      | .logMeta => some F
      | .tmp f => some { F with trash := F.trash ++ [(File.tmp f).name] } := by
  have hc : ∀ s : Txt, isTrash false s = false → entry false F s = match readClosed s with
      | some (f, l) => some { F with segs := putSeg f l F.segs }
      | none => match readOpen s with
        | some f => if F.opened.isNone then some { F with opened := some f } else none
        | none => some F := by
    intro s h
    unfold entry
    rw [h]
    rfl
  cases x with
  | closed f l =>
    obtain ⟨h1, h2⟩ : I64 f ∧ I64 l := hx
    have h3 := (C89_round_trip h1 h2 h1 []).1
    rw [List.append_nil] at h3
    have h4 := hc _ (trash_closed f l)
    rw [h3] at h4
    exact h4
  | opened f =>
    have hx : I64 f := hx
    have h1 := (C89_kinds f 0 []).1
    have h2 := (C89_round_trip hx hx hx []).2.1
    rw [List.append_nil] at h1 h2
    have h4 := hc _ (trash_open f)
    rw [h1, h2] at h4
    exact h4
  | logMeta => rfl
  | tmp f =>
    unfold entry
    rw [trash_tmp]
    rfl

/-- C89: the listing of a log directory, in whatever order its entries come, finds the closed segments by the first index, the
open segment, and what is to be unlinked; it fails only if there are two open segments. -/
theorem C89_log_dir (d : List File) (hok : ∀ x ∈ d, x.Ok)
    (hc : ∀ f l l', .closed f l ∈ d → .closed f l' ∈ d → l = l') :
    (∀ F, list false Found.start (d.map File.name) = some F →
      (∀ f l, (f, l) ∈ F.segs ↔ .closed f l ∈ d) ∧ F.segs.Pairwise (fun a b => a.1 < b.1) ∧
      (∀ f, F.opened = some f ↔ .opened f ∈ d) ∧ (∀ s, s ∈ F.trash ↔ ∃ x, File.tmp x ∈ d ∧ s = (File.tmp x).name)) ∧
    (list false Found.start (d.map File.name) = none → 2 ≤ (d.filter (fun x => match x with | .opened _ => true | _ => false)).length) := by
  have key : ∀ (d' : List File) (pre : List File) (F : Found), pre ++ d' = d →
      (∀ f l, (f, l) ∈ F.segs ↔ .closed f l ∈ pre) → SegSorted F.segs → (∀ f, F.opened = some f ↔ .opened f ∈ pre) →
      (∀ s, s ∈ F.trash ↔ ∃ x, File.tmp x ∈ pre ∧ s = (File.tmp x).name) →
      match list false F (d'.map File.name) with
      | some G => (∀ f l, (f, l) ∈ G.segs ↔ .closed f l ∈ d) ∧ G.segs.Pairwise (fun a b => a.1 < b.1) ∧
          (∀ f, G.opened = some f ↔ .opened f ∈ d) ∧ (∀ s, s ∈ G.trash ↔ ∃ x, File.tmp x ∈ d ∧ s = (File.tmp x).name)
      | none => 2 ≤ (d.filter (fun x => match x with | .opened _ => true | _ => false)).length := by
    intro d'
    induction d' with
    | nil =>
      intro pre F hp h1 h2 h3 h4
      rw [List.append_nil] at hp
      subst hp
      exact ⟨h1, h2, h3, h4⟩
    | cons x d' ih =>
      intro pre F hp h1 h2 h3 h4
      have hxd : x ∈ d := by rw [← hp]; simp
      have hpd : ∀ y ∈ pre, y ∈ d := by intro y hy; rw [← hp]; exact List.mem_append_left _ hy
      rw [List.map_cons, Braft.Names.list, entry_own F x (hok x hxd)]
      have hp' : (pre ++ [x]) ++ d' = d := by rw [List.append_assoc]; exact hp
      cases x with
      | closed f l =>
        dsimp only
        refine ih (pre ++ [.closed f l]) _ hp' (fun f' l' => ?_) (putSeg_sorted h2) (fun f' => ?_) (fun s => ?_)
        · simp only [List.mem_append, List.mem_singleton]
          constructor
          · intro h
            rcases putSeg_mem h with h | h
            · cases h; exact Or.inr rfl
            · exact Or.inl ((h1 _ _).mp h)
          · rintro (h | h)
            · refine putSeg_keep ((h1 _ _).mpr h) ?_
              by_cases he : f' = f
              · subst he
                exact Or.inr (by rw [hc f' l' l (hpd _ h) hxd])
              · exact Or.inl he
            · cases h; exact putSeg_self _ _ _
        · rw [h3]; simp
        · rw [h4]; simp
      | opened f =>
        dsimp only
        cases ho : F.opened with
        | none =>
          rw [if_pos (by rfl)]
          dsimp only
          refine ih (pre ++ [.opened f]) _ hp' (fun f' l' => ?_) h2 (fun f' => ?_) (fun s => ?_)
          · rw [h1]; simp
          · have : File.opened f' ∉ pre := fun h => by rw [← h3, ho] at h; cases h
            simp only [Option.some.injEq, List.mem_append, this, false_or, List.mem_singleton, File.opened.injEq]
            exact ⟨fun h => h.symm, fun h => h.symm⟩
          · rw [h4]; simp
        | some f' =>
          rw [if_neg (by simp)]
          dsimp only
          have hm := (h3 f').mp ho
          obtain ⟨a, b, hab⟩ := List.append_of_mem hm
          rw [← hp, hab]
          simp only [List.append_assoc, List.filter_append, List.length_append, List.cons_append, List.filter_cons, if_true,
            List.length_cons]
          omega
      | logMeta =>
        dsimp only
        refine ih (pre ++ [.logMeta]) _ hp' (fun f' l' => ?_) h2 (fun f' => ?_) (fun s => ?_)
        · rw [h1]; simp
        · rw [h3]; simp
        · rw [h4]; simp
      | tmp y =>
        dsimp only
        refine ih (pre ++ [.tmp y]) _ hp' (fun f' l' => ?_) h2 (fun f' => ?_) (fun s => ?_)
        · rw [h1]; simp
        · rw [h3]; simp
        · simp only [List.mem_append, List.mem_singleton, h4]
          constructor
          · rintro (⟨x, hx, h⟩ | h)
            · exact ⟨x, Or.inl hx, h⟩
            · exact ⟨y, Or.inr rfl, h⟩
          · rintro ⟨x, hx | hx, h⟩
            · exact Or.inl ⟨x, hx, h⟩
            · cases hx; exact Or.inr h
  have := key d [] Found.start rfl (fun f l => by simp [Found.start]) (by simp [SegSorted, Found.start])
    (fun f => by simp [Found.start]) (fun s => by simp [Found.start])
  constructor
  · intro F hF
    rw [hF] at this
    exact this
  · intro hF
    rw [hF] at this
    exact this

/-- C89: of the snapshots init keeps the newest one and deletes the others, in whatever order the directory lists them; other
names that do not begin like a snapshot change nothing. -/
theorem C89_snapshot_dir (d : List Int) (hd : ∀ i ∈ d, I64 i) (names : List Txt)
    (hn : ∀ s ∈ names, (∃ i ∈ d, s = snapName i) ∨ "snapshot_".toList.isPrefixOf s = false) (ha : ∀ i ∈ d, snapName i ∈ names) :
    (d = [] → snapInit names = ([], none)) ∧
    ∀ i, i ∈ d → (∀ j ∈ d, j ≤ i) → (snapInit names).2 = some i ∧ ∀ j, j ∈ (snapInit names).1 ↔ j ∈ d ∧ j ≠ i := by
  have hf := snaps_fold names [] List.Pairwise.nil
  have hm : ∀ i, i ∈ snaps names ↔ i ∈ d := by
    intro i
    refine (hf.2 i).trans ?_
    constructor
    · rintro (h | ⟨s, hs, h⟩)
      · cases h
      · rcases hn s hs with ⟨j, hj, rfl⟩ | h1
        · have := (C89_round_trip (hd j hj) (hd j hj) (hd j hj) []).2.2
          rw [List.append_nil, h] at this
          cases this
          exact hj
        · unfold readSnap lit at h
          rw [h1] at h
          cases h
    · intro h
      have := (C89_round_trip (hd i h) (hd i h) (hd i h) []).2.2
      rw [List.append_nil] at this
      exact Or.inr ⟨_, ha i h, this⟩
  have hs : (snaps names).Pairwise (· < ·) := hf.1
  unfold snapInit
  generalize snaps names = l at hm hs
  refine ⟨fun h => ?_, fun i hi hmax => ?_⟩
  · subst h
    have : l = [] := List.eq_nil_iff_forall_not_mem.mpr (fun i hi => by simpa using (hm i).mp hi)
    rw [this]; rfl
  · have hne : l ≠ [] := fun h => by rw [h] at hm; simpa using (hm i).mpr hi
    obtain ⟨a, b, rfl⟩ : ∃ a b, l = a ++ [b] := ⟨l.dropLast, l.getLast hne, (List.dropLast_concat_getLast hne).symm⟩
    have hp := List.pairwise_append.mp hs
    have hb : b = i := by
      have h1 := hmax b ((hm b).mp (by simp))
      have h2 := (hm i).mpr hi
      rcases List.mem_append.mp h2 with h3 | h3
      · have := hp.2.2 i h3 b (by simp); omega
      · exact (List.mem_singleton.mp h3).symm
    subst hb
    refine ⟨by simp, fun j => ?_⟩
    rw [List.dropLast_concat, ← hm]
    constructor
    · intro h
      have := hp.2.2 j h b (by simp)
      exact ⟨by simp [h], by omega⟩
    · rintro ⟨h, hj⟩
      rcases List.mem_append.mp h with h1 | h1
      · exact h1
      · simp at h1; exact absurd h1 hj

/-- C89: names that begin neither like a segment nor end like a temporary file are left alone. -/
theorem C89_foreign (F : Found) (s : Txt) (h1 : "log_".toList.isPrefixOf s = false) (h2 : ".tmp".toList.isSuffixOf s = false)
    (b : Bool) : entry b F s = some F := by
  have h3 : "log_inprogress_".toList.isPrefixOf s = false := by
    cases h : "log_inprogress_".toList.isPrefixOf s with
    | false => rfl
    | true =>
      rw [List.isPrefixOf_iff_prefix] at h
      have : "log_".toList <+: s := List.IsPrefix.trans (by decide) h
      rw [← List.isPrefixOf_iff_prefix, h1] at this
      cases this
  unfold entry isTrash readClosed readOpen lit
  rw [h1, h2, h3]
  simp

/-- C89: without log_meta nothing is found, and all segments are unlinked. -/
theorem C89_without_meta (F : Found) (l : List Txt) :
    ∃ G, list true F l = some G ∧ G.segs = F.segs ∧ G.opened = F.opened ∧
      ∀ s ∈ l, "log_".toList.isPrefixOf s = true → s ∈ G.trash := by
  have grow : ∀ (l : List Txt) (F G : Found), list true F l = some G → ∀ s ∈ F.trash, s ∈ G.trash := by
    intro l
    induction l with
    | nil => intro F G h s hs; cases h; exact hs
    | cons a l ih =>
      intro F G h s hs
      rw [Braft.Names.list] at h
      cases he : entry true F a with
      | none => rw [he] at h; cases h
      | some F' =>
        rw [he] at h
        refine ih F' G h s ?_
        unfold entry at he
        split at he
        · cases he; exact List.mem_append_left _ hs
        · split at he
          · cases he; exact hs
          · split at he
            · split at he
              · cases he; exact hs
              · cases he
            · cases he; exact hs
  induction l generalizing F with
  | nil => exact ⟨F, rfl, rfl, rfl, fun s hs => by cases hs⟩
  | cons a l ih =>
    by_cases ht : isTrash true a = true
    · have he : entry true F a = some { F with trash := F.trash ++ [a] } := by unfold entry; rw [if_pos ht]
      obtain ⟨G, h1, h2, h3, h4⟩ := ih { F with trash := F.trash ++ [a] }
      refine ⟨G, by rw [Braft.Names.list, he]; exact h1, h2, h3, fun s hs hp => ?_⟩
      rcases List.mem_cons.mp hs with h | h
      · subst h; exact grow l _ G h1 s (by simp)
      · exact h4 s h hp
    · have ht' : isTrash true a = false := by simpa using ht
      have h5 : "log_".toList.isPrefixOf a = false ∧ ".tmp".toList.isSuffixOf a = false := by
        unfold isTrash at ht'
        simpa using ht'
      have he := C89_foreign F a h5.1 h5.2 true
      obtain ⟨G, h1, h2, h3, h4⟩ := ih F
      refine ⟨G, by rw [Braft.Names.list, he]; exact h1, h2, h3, fun s hs hp => ?_⟩
      rcases List.mem_cons.mp hs with h | h
      · subst h; rw [h5.1] at hp; cases hp
      · exact h4 s h hp

/-! ### The hypotheses are met -/

example : closedName 1 20 = "log_00000000000000000001_00000000000000000020".toList := by decide +kernel
example : list false Found.start (([.opened 21, .tmp (.closed 1 10), .logMeta, .closed 11 20] : List File).map File.name) =
    some ⟨[(11, 20)], some 21, [(File.tmp (.closed 1 10)).name]⟩ := by decide +kernel
example : snapInit ["temp".toList, snapName 9, snapName 12, snapName 5] = ([5, 9], some 12) := by decide +kernel

/-! ### What does not hold -/

/-- C89, the rest is false: a name that goes on after the index is taken for a snapshot. A directory that was put aside under
such a name makes init delete the snapshot that there is, and keep one that there is not. -/
theorem C89_aside_violated : let dir := [snapName 5, snapName 9 ++ ".bad".toList]
    snapInit dir = ([5], some 9) ∧ snapName 5 ∈ dir ∧ snapName 9 ∉ dir := by decide +kernel

/-- The same with a segment put aside: it hides the one with the same first index. -/
theorem C89_segment_violated : let dir := [closedName 1 20, closedName 1 10 ++ ".bak".toList]
    list false Found.start dir = some ⟨[(1, 10)], none, []⟩ ∧ closedName 1 10 ∉ dir := by decide +kernel

/-- The listing depends on the order of the directory then. -/
theorem C89_order_violated : list false Found.start [closedName 1 20, closedName 1 10 ++ ".bak".toList] ≠
    list false Found.start [closedName 1 10 ++ ".bak".toList, closedName 1 20] := by decide +kernel

end Braft.Props.Names
