import Verif.Snap.Storage
/-
Invariant of the model of LocalSnapshotStorage and its preservation.
-/
set_option linter.unusedSectionVars false
set_option linter.unusedSimpArgs false
set_option linter.unusedVariables false

namespace Braft.Snap
variable {N B : Type} [DecidableEq N]

theorem get_del {α : Type} (l : List (Nat × α)) (i j : Nat) : get (del l i) j = if j = i then none else get l j := by
  unfold get del
  induction l with
  | nil => simp
  | cons x l ih =>
    by_cases hx : x.1 = i
    · rw [List.filter_cons_of_neg (by simp [hx]), ih]
      by_cases hj : j = i
      · simp [hj]
      · rw [if_neg hj, if_neg hj, List.find?_cons_of_neg (by simp; omega)]
    · rw [List.filter_cons_of_pos (by simp [hx])]
      by_cases hxj : x.1 = j
      · rw [List.find?_cons_of_pos (by simp [hxj]), List.find?_cons_of_pos (by simp [hxj]), if_neg (by omega)]
      · rw [List.find?_cons_of_neg (by simp [hxj]), List.find?_cons_of_neg (by simp [hxj]), ih]

theorem get_put {α : Type} (l : List (Nat × α)) (i j : Nat) (a : α) :
    get (put l i a) j = if j = i then some a else get l j := by
  unfold put
  by_cases hj : j = i
  · rw [if_pos hj]; unfold get; rw [List.find?_cons_of_pos (by simp [hj])]; rfl
  · rw [if_neg hj]
    have : get ((i, a) :: del l i) j = get (del l i) j := by
      unfold get; rw [List.find?_cons_of_neg (by simp; omega)]
    rw [this, get_del, if_neg hj]

theorem get_mem {α : Type} {l : List (Nat × α)} {i : Nat} {a : α} (h : get l i = some a) : (i, a) ∈ l := by
  unfold get at h
  cases hf : l.find? (fun x => x.1 == i) with
  | none => rw [hf] at h; cases h
  | some x =>
    rw [hf] at h
    have h1 := List.find?_some hf
    have h2 := List.mem_of_find?_eq_some hf
    simp at h h1
    obtain ⟨a1, a2⟩ := x
    simp at h h1
    subst h; subst h1
    exact h2

theorem get_none {α : Type} {l : List (Nat × α)} {i : Nat} (h : get l i = none) : ∀ a, (i, a) ∉ l := by
  intro a hm
  unfold get at h
  rw [Option.map_eq_none_iff, List.find?_eq_none] at h
  have := h _ hm
  simp at this

theorem get_isSome {α : Type} {l : List (Nat × α)} {i : Nat} : (get l i).isSome = true ↔ i ∈ l.map Prod.fst := by
  constructor
  · intro h
    obtain ⟨a, ha⟩ := Option.isSome_iff_exists.mp h
    exact List.mem_map.mpr ⟨_, get_mem ha, rfl⟩
  · intro h
    obtain ⟨x, hx, rfl⟩ := List.mem_map.mp h
    cases hg : get l x.1 with
    | none => exact absurd hx (get_none hg x.2)
    | some _ => rfl

/-- The index of the newest snapshot published. -/
def top (s : State N B) : Nat := (s.pub.head?.map Prod.fst).getD 0

/-- References the storage itself holds to snapshot `i`. -/
def own (w : Writer N B) (last i : Nat) : Nat :=
  (if i = last ∧ last ≠ 0 then 1 else 0) +
  match w with
  | .reffed n _ => if i = n then 1 else 0
  | .moved _ o => if i = o ∧ o ≠ 0 then 1 else 0
  | _ => 0

/-- The disk. -/
structure Disk (s : State N B) : Prop where
  newest : ∀ n d rest, s.pub = (n, d) :: rest → get s.snaps n = some d ∧ 0 < n
  keys : ∀ i, (get s.snaps i).isSome = true → i ≤ top s ∧ 0 < i
  dec : s.pub.Pairwise (fun a b => b.1 < a.1)
  info : ∀ x ∈ s.pub, ∃ t, x.2.info = some ⟨x.1, t⟩

/-- The thread that closes a writer. -/
def WOk (s : State N B) : Prop :=
  match s.w with
  | .renamed n o => s.last = o ∧ top s = n ∧ o < n
  | .reffed n o => s.last = o ∧ top s = n ∧ o < n
  | .moved n o => s.last = n ∧ top s = n ∧ o < n
  | .clearNew n o d => s.last = top s ∧ o = s.last ∧ o < n ∧ s.temp = some d ∧ ∃ t, d.info = some ⟨n, t⟩
  | .renaming n o d => s.last = top s ∧ o = s.last ∧ o < n ∧ s.temp = some d ∧ ∃ t, d.info = some ⟨n, t⟩
  | _ => s.last = top s

/-- The process runs. -/
structure Up (s : State N B) : Prop where
  refEq : ∀ i, s.ref i = own s.w s.last i + s.readers.countP (fun r => decide (r.2 = i))
  refPos : ∀ i, get s.refs i ≠ some 0
  rid : (s.readers.map Prod.fst).Nodup
  ridLt : ∀ r ∈ s.readers, r.1 < s.nextId
  rpos : ∀ r ∈ s.readers, 0 < r.2 ∧ r.2 ≤ s.last
  live : ∀ i, 0 < s.ref i → ∃ d, get s.snaps i = some d ∧ (i, d) ∈ s.pub
  dead : ∀ i ∈ s.dels, s.ref i = 0 ∧ i < s.last
  rest : ∀ i, (get s.snaps i).isSome = true → i = s.last ∨ 0 < s.ref i ∨ i ∈ s.dels ∨ i ∈ s.left ∨ ∃ o, s.w = .renamed i o
  wok : WOk s

/-- Nothing in memory. -/
structure Blank (s : State N B) : Prop where
  refs : s.refs = []
  readers : s.readers = []
  dels : s.dels = []
  last : s.last = 0
  w : s.w = .idle

def Phase (s : State N B) : Prop :=
  match s.proc with
  | .dead => Blank s
  | .initTemp => Blank s
  | .initOld l m => Blank s ∧ m = top s ∧ (∀ i ∈ l, i < m) ∧ ∀ i, (get s.snaps i).isSome = true → i = m ∨ i ∈ l
  | .up => Up s

structure Inv (s : State N B) : Prop where
  disk : Disk s
  phase : Phase s

/-! ### Reference counts -/

theorem ref_doRef (s : State N B) (i j : Nat) : (s.doRef i).ref j = s.ref j + if j = i then 1 else 0 := by
  show (get (put s.refs i (s.ref i + 1)) j).getD 0 = _
  rw [get_put]
  by_cases h : j = i
  · subst h; simp
  · rw [if_neg h, if_neg h]; rfl

theorem refs_doRef_pos {s : State N B} (h : ∀ i, get s.refs i ≠ some 0) (i : Nat) : ∀ j, get (s.doRef i).refs j ≠ some 0 := by
  intro j
  show get (put s.refs i (s.ref i + 1)) j ≠ _
  rw [get_put]
  split
  · simp
  · exact h j

/-- unref of a snapshot that has a reference. -/
theorem doUnref_cases {s : State N B} (hz : ∀ i, get s.refs i ≠ some 0) {i : Nat} (hp : 0 < s.ref i) :
    (∀ j, (s.doUnref i).ref j = if j = i then s.ref i - 1 else s.ref j) ∧ (∀ j, get (s.doUnref i).refs j ≠ some 0) ∧
    ((s.doUnref i).dels = if s.ref i = 1 then i :: s.dels else s.dels) ∧
    (s.doUnref i).snaps = s.snaps ∧ (s.doUnref i).last = s.last ∧ (s.doUnref i).readers = s.readers ∧ (s.doUnref i).pub = s.pub ∧
    (s.doUnref i).w = s.w ∧ (s.doUnref i).left = s.left ∧ (s.doUnref i).nextId = s.nextId ∧ (s.doUnref i).temp = s.temp ∧
    (s.doUnref i).proc = s.proc := by
  unfold State.ref at hp
  cases hg : get s.refs i with
  | none => rw [hg] at hp; simp at hp
  | some c =>
    have hc : c ≠ 0 := by intro h; subst h; exact hz i hg
    have hr : s.ref i = c := by unfold State.ref; rw [hg]; rfl
    unfold State.doUnref
    rw [hg, hr]
    dsimp only
    by_cases h1 : c = 1
    · rw [if_pos (by omega), if_pos h1]
      refine ⟨?_, ?_, rfl, rfl, rfl, rfl, rfl, rfl, rfl, rfl, rfl, rfl⟩
      · intro j
        show (get (del s.refs i) j).getD 0 = _
        rw [get_del]
        by_cases hj : j = i
        · simp [hj, h1]
        · rw [if_neg hj, if_neg hj]; rfl
      · intro j
        show get (del s.refs i) j ≠ _
        rw [get_del]
        split
        · simp
        · exact hz j
    · rw [if_neg (by omega), if_neg h1]
      refine ⟨?_, ?_, rfl, rfl, rfl, rfl, rfl, rfl, rfl, rfl, rfl, rfl⟩
      · intro j
        show (get (put s.refs i (c - 1)) j).getD 0 = _
        rw [get_put]
        by_cases hj : j = i
        · simp [hj]
        · rw [if_neg hj, if_neg hj]; rfl
      · intro j
        show get (put s.refs i (c - 1)) j ≠ _
        rw [get_put]
        split
        · intro h; injection h; omega
        · exact hz j

theorem doUnref_zero {s : State N B} (hz : ∀ i, get s.refs i ≠ some 0) {i : Nat} (hp : s.ref i = 0) : s.doUnref i = s := by
  unfold State.doUnref
  cases hg : get s.refs i with
  | none => rfl
  | some c =>
    unfold State.ref at hp; rw [hg] at hp
    simp at hp; subst hp
    exact absurd hg (hz i)

/-! ### Directories -/

theorem get_rot {s : State N B} {i : Nat} {d : Dir N B} (j : Nat) :
    get (s.rot i d).snaps j = if j = i then (get s.snaps i).map (fun _ => d) else get s.snaps j := by
  unfold State.rot
  cases hg : get s.snaps i with
  | none =>
    dsimp only
    by_cases hj : j = i
    · subst hj; rw [if_pos rfl, hg]; rfl
    · rw [if_neg hj]
  | some x =>
    dsimp only
    rw [get_put]; rfl

theorem rot_same (s : State N B) (i : Nat) (d : Dir N B) : (s.rot i d).pub = s.pub ∧ (s.rot i d).proc = s.proc ∧
    (s.rot i d).last = s.last ∧ (s.rot i d).refs = s.refs ∧ (s.rot i d).readers = s.readers ∧ (s.rot i d).nextId = s.nextId ∧
    (s.rot i d).dels = s.dels ∧ (s.rot i d).w = s.w ∧ (s.rot i d).left = s.left ∧ (s.rot i d).temp = s.temp ∧
    (s.rot i d).closed = s.closed := by
  unfold State.rot
  split <;> exact ⟨rfl, rfl, rfl, rfl, rfl, rfl, rfl, rfl, rfl, rfl, rfl⟩

/-- The disk part holds if the directories change only below the newest snapshot. -/
theorem Disk.change {s t : State N B} (h : Disk s) (hp : t.pub = s.pub) {i : Nat} (hi : i ≠ top s)
    (hg : ∀ j, j ≠ i → get t.snaps j = get s.snaps j) (hs : (get t.snaps i).isSome = true → (get s.snaps i).isSome = true) :
    Disk t := by
  have ht : top t = top s := by unfold top; rw [hp]
  refine ⟨?_, ?_, by rw [hp]; exact h.dec, by rw [hp]; exact h.info⟩
  · intro n d rest he
    rw [hp] at he
    have h1 := h.newest n d rest he
    have : n = top s := by unfold top; rw [he]; rfl
    rw [hg n (by omega)]
    exact h1
  · intro j hj
    rw [ht]
    by_cases e : j = i
    · subst e; exact h.keys j (hs hj)
    · rw [hg j e] at hj; exact h.keys j hj

theorem Disk.same {s t : State N B} (h : Disk s) (hp : t.pub = s.pub) (hs : t.snaps = s.snaps) : Disk t := by
  have ht : top t = top s := by unfold top; rw [hp]
  exact ⟨by rw [hp, hs]; exact h.newest, by rw [hs, ht]; exact h.keys, by rw [hp]; exact h.dec, by rw [hp]; exact h.info⟩

theorem Disk.topPos {s : State N B} (h : Disk s) (ht : top s ≠ 0) : ∃ d rest, s.pub = (top s, d) :: rest ∧ get s.snaps (top s) = some d := by
  cases hp : s.pub with
  | nil => unfold top at ht; rw [hp] at ht; exact absurd rfl ht
  | cons x rest =>
    obtain ⟨n, d⟩ := x
    have : top s = n := by unfold top; rw [hp]; rfl
    rw [this]
    exact ⟨d, rest, rfl, (h.newest n d rest hp).1⟩

/-! ### Steps that do not touch the directories -/

/-- The writer is not between rename and the end of close. -/
def calm : Writer N B → Bool
  | .renamed _ _ => false
  | .reffed _ _ => false
  | .moved _ _ => false
  | _ => true

theorem own_calm {w : Writer N B} (h : calm w = true) (last i : Nat) : own w last i = if i = last ∧ last ≠ 0 then 1 else 0 := by
  unfold own
  cases w <;> first | rfl | (exact absurd h (by simp [calm]))

theorem WOk.calm_last {s : State N B} (h : WOk s) (hc : calm s.w = true) : s.last = top s := by
  unfold WOk at h
  cases hw : s.w <;> rw [hw] at h hc <;> dsimp only at h
  · exact h
  · exact h
  · exact h
  · exact h.1
  · exact h.1
  · exact absurd hc (by simp [calm])
  · exact absurd hc (by simp [calm])
  · exact absurd hc (by simp [calm])
  · exact h

theorem Up.neutral {s t : State N B} (h : Up s) (hc : calm s.w = true) (hc' : calm t.w = true) (e1 : t.snaps = s.snaps)
    (e2 : t.last = s.last) (e3 : t.refs = s.refs) (e4 : t.readers = s.readers) (e5 : t.nextId = s.nextId)
    (e6 : t.dels = s.dels) (e7 : t.pub = s.pub) (e8 : t.left = s.left) (hw : WOk t) : Up t := by
  have er : ∀ i, t.ref i = s.ref i := by intro i; unfold State.ref; rw [e3]
  refine ⟨?_, by rw [e3]; exact h.refPos, by rw [e4]; exact h.rid, by rw [e4, e5]; exact h.ridLt, by rw [e4, e2]; exact h.rpos, ?_, ?_, ?_, hw⟩
  · intro i
    rw [er, own_calm hc', e2, e4, ← own_calm hc]
    exact h.refEq i
  · intro i hi; rw [er] at hi; rw [e1, e7]; exact h.live i hi
  · rw [e6, e2]; intro i hi; rw [er]; exact h.dead i hi
  · rw [e1, e2, e6, e8]
    intro i hi
    rw [er]
    rcases h.rest i hi with h1 | h1 | h1 | h1 | ⟨o, h1⟩
    · exact Or.inl h1
    · exact Or.inr (Or.inl h1)
    · exact Or.inr (Or.inr (Or.inl h1))
    · exact Or.inr (Or.inr (Or.inr (Or.inl h1)))
    · rw [h1] at hc; exact absurd hc (by simp [calm])

theorem Phase.of_up {s : State N B} (hp : s.proc = .up) (h : Up s) : Phase s := by
  unfold Phase; rw [hp]; exact h

theorem Phase.up {s : State N B} (h : Phase s) (hp : s.proc = .up) : Up s := by
  unfold Phase at h; rw [hp] at h; exact h

/-- A writer exists only in a running process. -/
theorem Phase.running {s : State N B} (h : Phase s) (hw : s.w ≠ .idle) : s.proc = .up := by
  unfold Phase at h
  cases hp : s.proc <;> rw [hp] at h <;> dsimp only at h
  · exact absurd h.w hw
  · exact absurd h.w hw
  · exact absurd h.1.w hw

/-- A step of the writer that changes temp and where it is, at most. -/
theorem Inv.neutral {s t : State N B} (h : Inv s) (hn : s.w ≠ .idle) (hc : calm s.w = true) (hc' : calm t.w = true)
    (e0 : t.proc = s.proc) (e1 : t.snaps = s.snaps)
    (e2 : t.last = s.last) (e3 : t.refs = s.refs) (e4 : t.readers = s.readers) (e5 : t.nextId = s.nextId)
    (e6 : t.dels = s.dels) (e7 : t.pub = s.pub) (e8 : t.left = s.left)
    (hw : s.last = top t → WOk t) : Inv t := by
  have hp := h.phase.running hn
  have hup := h.phase.up hp
  have ht : top t = top s := by unfold top; rw [e7]
  exact ⟨h.disk.same e7 e1, Phase.of_up (by rw [e0, hp])
    (hup.neutral hc hc' e1 e2 e3 e4 e5 e6 e7 e8 (hw (by rw [ht]; exact hup.wok.calm_last hc)))⟩

/-! ### The steps -/

theorem Inv.crash {s : State N B} (h : Inv s) : Inv s.crash :=
  ⟨h.disk.same rfl rfl, ⟨rfl, rfl, rfl, rfl, rfl⟩⟩

theorem Inv.init {s : State N B} (h : Inv s) : Inv s.init := by
  unfold State.init
  split
  · rename_i hp
    have hb : Blank s := by have := h.phase; unfold Phase at this; rw [hp] at this; exact this
    exact ⟨h.disk.same rfl rfl, ⟨hb.1, hb.2, hb.3, hb.4, hb.5⟩⟩
  · exact h

theorem Inv.initTempStep {s : State N B} (h : Inv s) (d : Dir N B) : Inv (s.initTempStep d) := by
  unfold State.initTempStep
  split
  · rename_i hp
    have hb : Blank s := by have := h.phase; unfold Phase at this; rw [hp] at this; exact this
    refine ⟨h.disk.same rfl rfl, ?_⟩
    unfold Phase
    rw [show ({ s with temp := s.temp.map (fun _ => d) } : State N B).proc = s.proc from rfl, hp]
    exact ⟨hb.1, hb.2, hb.3, hb.4, hb.5⟩
  · exact h

theorem foldl_max_ge (l : List Nat) : ∀ a, a ≤ l.foldl max a ∧ ∀ x ∈ l, x ≤ l.foldl max a := by
  induction l with
  | nil => intro a; exact ⟨Nat.le_refl _, by simp⟩
  | cons y l ih =>
    intro a
    obtain ⟨h1, h2⟩ := ih (max a y)
    simp only [List.foldl_cons]
    refine ⟨by omega, ?_⟩
    intro x hx
    rcases List.mem_cons.mp hx with rfl | hx
    · omega
    · exact h2 x hx

theorem foldl_max_mem (l : List Nat) : ∀ a, l.foldl max a = a ∨ l.foldl max a ∈ l := by
  induction l with
  | nil => intro a; exact Or.inl rfl
  | cons y l ih =>
    intro a
    simp only [List.foldl_cons, List.mem_cons]
    rcases ih (max a y) with h | h
    · rw [h]; omega
    · exact Or.inr (Or.inr h)

theorem Disk.max_top {s : State N B} (h : Disk s) : maxOf (s.snaps.map Prod.fst) = top s := by
  have h1 := foldl_max_ge (s.snaps.map Prod.fst) 0
  unfold maxOf
  by_cases ht : top s = 0
  · have : s.snaps.map Prod.fst = [] := by
      cases hs : s.snaps.map Prod.fst with
      | nil => rfl
      | cons x l =>
        have := h.keys x (get_isSome.mpr (by rw [hs]; exact List.mem_cons_self ..))
        omega
    rw [this, ht]; rfl
  · obtain ⟨d, rest, _, hg⟩ := h.topPos ht
    have hm : top s ∈ s.snaps.map Prod.fst := get_isSome.mp (by rw [hg]; rfl)
    have hle := h1.2 _ hm
    rcases foldl_max_mem (s.snaps.map Prod.fst) 0 with e | e
    · omega
    · have := h.keys _ (get_isSome.mpr e); omega

theorem Inv.initScan {s : State N B} (h : Inv s) (b : Bool) : Inv (s.initScan b) := by
  unfold State.initScan
  split
  · rename_i hp
    have hb : Blank s := by have := h.phase; unfold Phase at this; rw [hp] at this; exact this
    refine ⟨h.disk.same rfl rfl, ?_⟩
    unfold Phase
    dsimp only
    have hm := h.disk.max_top
    refine ⟨⟨hb.1, hb.2, hb.3, hb.4, hb.5⟩, hm, ?_, ?_⟩
    · intro i hi
      rw [List.mem_filter] at hi
      have h1 := (foldl_max_ge (s.snaps.map Prod.fst) 0).2 i hi.1
      have h2 := of_decide_eq_true hi.2
      unfold maxOf at h2 ⊢
      omega
    · intro i hi
      by_cases e : i = maxOf (s.snaps.map Prod.fst)
      · exact Or.inl e
      · exact Or.inr (List.mem_filter.mpr ⟨get_isSome.mp hi, decide_eq_true e⟩)
  · exact h

theorem Inv.initOldStep {s : State N B} (h : Inv s) (d : Dir N B) : Inv (s.initOldStep d) := by
  unfold State.initOldStep
  split
  · rename_i i l m hp
    have hph := h.phase
    unfold Phase at hph
    rw [hp] at hph
    obtain ⟨hb, hm, hl, hk⟩ := hph
    obtain ⟨e1, e2, e3, e4, e5, e6, e7, e8, e9, e10, e11⟩ := rot_same s i d
    have hi := hl i (List.mem_cons_self ..)
    have hs : ∀ j, (get (s.rot i d).snaps j).isSome = true → (get s.snaps j).isSome = true := by
      intro j hj
      rw [get_rot] at hj
      by_cases e : j = i
      · subst e; rw [if_pos rfl] at hj; simpa using hj
      · rw [if_neg e] at hj; exact hj
    refine ⟨h.disk.change e1 (i := i) (by omega) ?_ (hs i), ?_⟩
    · intro j hj; rw [get_rot, if_neg hj]
    · unfold Phase
      rw [e2, hp]
      have ht : top (s.rot i d) = top s := by unfold top; rw [e1]
      exact ⟨⟨by rw [e4]; exact hb.1, by rw [e5]; exact hb.2, by rw [e7]; exact hb.3, by rw [e3]; exact hb.4, by rw [e8]; exact hb.5⟩,
        by rw [ht]; exact hm, hl, fun j hj => hk j (hs j hj)⟩
  · exact h

theorem Inv.initOldDone {s : State N B} (h : Inv s) : Inv s.initOldDone := by
  unfold State.initOldDone
  split
  · rename_i i l m hp
    have hph := h.phase
    unfold Phase at hph
    rw [hp] at hph
    obtain ⟨hb, hm, hl, hk⟩ := hph
    have hi := hl i (List.mem_cons_self ..)
    refine ⟨h.disk.change rfl (i := i) (by omega) ?_ ?_, ?_⟩
    · intro j hj
      show get (del s.snaps i) j = _
      rw [get_del, if_neg hj]
    · intro hx
      rw [show ({ s with snaps := del s.snaps i, proc := .initOld l m } : State N B).snaps = del s.snaps i from rfl, get_del, if_pos rfl] at hx
      cases hx
    · refine ⟨⟨hb.1, hb.2, hb.3, hb.4, hb.5⟩, hm, fun j hj => hl j (List.mem_cons_of_mem _ hj), ?_⟩
      intro j hj
      rw [show ({ s with snaps := del s.snaps i, proc := .initOld l m } : State N B).snaps = del s.snaps i from rfl, get_del] at hj
      by_cases e : j = i
      · rw [if_pos e] at hj; cases hj
      · rw [if_neg e] at hj
        rcases hk j hj with h1 | h1
        · exact Or.inl h1
        · rcases List.mem_cons.mp h1 with h2 | h2
          · exact absurd h2 e
          · exact Or.inr h2
  · exact h

theorem Inv.initDone {s : State N B} (h : Inv s) : Inv s.initDone := by
  unfold State.initDone
  split
  · rename_i m hp
    have hph := h.phase
    unfold Phase at hph
    rw [hp] at hph
    obtain ⟨hb, hm, hl, hk⟩ := hph
    by_cases he : s.snaps.isEmpty = true
    · rw [if_pos he]
      have hnil := List.isEmpty_iff.mp he
      refine ⟨h.disk.same rfl rfl, ?_⟩
      have ht : top s = 0 := by
        by_cases ht : top s = 0
        · exact ht
        · obtain ⟨d, rest, _, hg⟩ := h.disk.topPos ht
          rw [hnil] at hg; cases hg
      have hr : ∀ i, State.ref ({ s with proc := .up, last := 0 } : State N B) i = 0 := by
        intro i; unfold State.ref; show (get s.refs i).getD 0 = 0; rw [hb.1]; rfl
      refine ⟨?_, ?_, ?_, ?_, ?_, ?_, ?_, ?_, ?_⟩
      · intro i; rw [hr]; show 0 = own s.w 0 i + s.readers.countP _; rw [hb.w, hb.readers]; simp [own]
      · intro i; show get s.refs i ≠ _; rw [hb.1]; simp [get]
      · show (s.readers.map Prod.fst).Nodup; rw [hb.readers]; exact List.nodup_nil
      · show ∀ r ∈ s.readers, _; rw [hb.readers]; intro r hr; cases hr
      · show ∀ r ∈ s.readers, _; rw [hb.readers]; intro r hr; cases hr
      · intro i hi; rw [hr] at hi; omega
      · show ∀ i ∈ s.dels, _; rw [hb.dels]; intro r hr; cases hr
      · intro i hi
        rw [show ({ s with proc := .up, last := 0 } : State N B).snaps = s.snaps from rfl, hnil] at hi
        cases hi
      · unfold WOk
        rw [show ({ s with proc := .up, last := 0 } : State N B).w = s.w from rfl, hb.w]
        exact ht.symm
    · rw [if_neg he]
      have hne : top s ≠ 0 := by
        cases hs : s.snaps with
        | nil => rw [hs] at he; simp at he
        | cons x l =>
          have := h.disk.keys x.1 (get_isSome.mpr (by rw [hs]; simp))
          omega
      obtain ⟨d, rest, hpub, hg⟩ := h.disk.topPos hne
      subst hm
      refine ⟨h.disk.same rfl rfl, ?_⟩
      have hr0 : ∀ i, State.ref ({ s with proc := .up, last := top s } : State N B) i = 0 := by
        intro i; unfold State.ref; show (get s.refs i).getD 0 = 0; rw [hb.1]; rfl
      have hr : ∀ i, State.ref (State.doRef ({ s with proc := .up, last := top s } : State N B) (top s)) i = if i = top s then 1 else 0 := by
        intro i; rw [ref_doRef, hr0]; simp
      refine ⟨?_, ?_, ?_, ?_, ?_, ?_, ?_, ?_, ?_⟩
      · intro i; rw [hr]; show _ = own s.w (top s) i + s.readers.countP _; rw [hb.w, hb.readers]; simp [own, hne]
      · apply refs_doRef_pos; intro i; show get s.refs i ≠ _; rw [hb.1]; simp [get]
      · show (s.readers.map Prod.fst).Nodup; rw [hb.readers]; exact List.nodup_nil
      · show ∀ r ∈ s.readers, _; rw [hb.readers]; intro r hr; cases hr
      · show ∀ r ∈ s.readers, _; rw [hb.readers]; intro r hr; cases hr
      · intro i hi
        rw [hr] at hi
        by_cases e : i = top s
        · subst e; exact ⟨d, hg, by show _ ∈ s.pub; rw [hpub]; exact List.mem_cons_self ..⟩
        · rw [if_neg e] at hi; omega
      · show ∀ i ∈ s.dels, _; rw [hb.dels]; intro r hr; cases hr
      · intro i hi
        rcases hk i hi with h1 | h1
        · exact Or.inl h1
        · cases h1
      · unfold WOk
        rw [show (State.doRef ({ s with proc := .up, last := top s } : State N B) (top s)).w = s.w from rfl, hb.w]
        rfl
  · exact h

end Braft.Snap
