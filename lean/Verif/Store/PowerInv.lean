import Verif.Store.Power
import Verif.Props.Store
/- Lemmas about power failures (Store/Power.lean): every operation, one call after the other. -/
set_option linter.unusedVariables false
set_option linter.unusedSimpArgs false
set_option linter.unusedSectionVars false

namespace Braft.Store
open Braft.Props

variable {K : Type}

/-! ### Names are unique -/

structure Keys (d : Disk) : Prop where
  cc : ∀ x ∈ d.closed, ∀ y ∈ d.closed, x.first = y.first → x = y
  co : ∀ x ∈ d.closed, ∀ y ∈ d.opens, x.first ≠ y.1
  oo : ∀ x ∈ d.opens, ∀ y ∈ d.opens, x.1 = y.1 → x = y

theorem files_inj (c : Codec K) (cs : List (List (Entry K))) (b : Nat) (hne : ∀ x ∈ cs, x ≠ []) :
    ∀ x ∈ c.files b cs, ∀ y ∈ c.files b cs, x.first = y.first → x = y := by
  induction cs generalizing b with
  | nil => intro x hx; simp [Codec.files] at hx
  | cons a cs ih =>
    have ha : 0 < a.length := List.length_pos_iff.mpr (hne a (List.mem_cons_self ..))
    have hne' : ∀ x ∈ cs, x ≠ [] := fun x hx => hne x (List.mem_cons_of_mem _ hx)
    intro x hx y hy he
    simp only [Codec.files, List.mem_cons] at hx hy
    rcases hx with hx | hx <;> rcases hy with hy | hy
    · rw [hx, hy]
    · have := (files_mem c _ cs hne' y hy).1
      rw [hx] at he; simp only at he; omega
    · have := (files_mem c _ cs hne' x hx).1
      rw [hy] at he; simp only at he; omega
    · exact ih _ hne' x hx y hy he

theorem keys_mk (c : Codec K) (first base : Nat) (chunks : List (List (Entry K))) (oc tail)
    (hne : ∀ x ∈ chunks, x ≠ []) : Keys (c.mkDisk first base chunks oc tail) := by
  refine ⟨files_inj c chunks base hne, ?_, ?_⟩
  · intro x hx y hy
    have := (files_mem c base chunks hne x hx).2
    cases oc with
    | none => simp [Codec.mkDisk] at hy
    | some es =>
      simp only [Codec.mkDisk, List.mem_singleton] at hy
      rw [hy]; simp only; omega
  · intro x hx y hy _
    cases oc with
    | none => simp [Codec.mkDisk] at hy
    | some es =>
      simp only [Codec.mkDisk, List.mem_singleton] at hx hy
      rw [hx, hy]

theorem DiskRep.keys {c : Codec K} {d : Disk} {A : Arr K} (h : DiskRep c d A) : Keys d := by
  obtain ⟨base, chunks, oc, tail, hg, ht, hd, hb, he⟩ := h
  rw [hd]; exact keys_mk c A.first base chunks oc tail hg.ne

/-! ### Durable files -/

def Snap.ClosedClean (s : Snap) : Prop := ∀ x ∈ s.d.closed, x.data.length ≤ s.syn x.first

theorem mem_insertC (x y : CFile) (l : List CFile) : y ∈ insertC x l ↔ y = x ∨ y ∈ l := by
  induction l with
  | nil => simp [insertC]
  | cons z zs ih =>
    unfold insertC
    split
    · simp
    · simp only [List.mem_cons, ih]
      constructor
      · rintro (h | h | h)
        · exact Or.inr (Or.inl h)
        · exact Or.inl h
        · exact Or.inr (Or.inr h)
      · rintro (h | h | h)
        · exact Or.inr (Or.inl h)
        · exact Or.inl h
        · exact Or.inr (Or.inr h)

theorem upd_self (s : Nat → Nat) (f n : Nat) : upd s f n f = n := by simp [upd]
theorem upd_ne (s : Nat → Nat) (f n g : Nat) (h : g ≠ f) : upd s f n g = s g := by simp [upd, h]

theorem sum_ge {α : Type} (l : List α) (g : α → Nat) (x : α) (h : x ∈ l) : g x ≤ (l.map g).sum := by
  induction l with
  | nil => cases h
  | cons y ys ih =>
    rw [List.map_cons, List.sum_cons]
    rcases List.mem_cons.mp h with h | h
    · subst h; omega
    · have := ih h; omega

theorem lenOf_closed (d : Disk) (x : CFile) (h : x ∈ d.closed) : x.data.length ≤ d.lenOf x.first := by
  unfold Disk.lenOf
  have := sum_ge (d.closed.filter (fun y => decide (y.first = x.first))) (fun y => y.data.length) x
    (List.mem_filter.mpr ⟨h, by simp⟩)
  omega

theorem lenOf_open (d : Disk) (x : Nat × Bytes) (h : x ∈ d.opens) : x.2.length ≤ d.lenOf x.1 := by
  unfold Disk.lenOf
  have := sum_ge (d.opens.filter (fun y => decide (y.1 = x.1))) (fun y => y.2.length) x
    (List.mem_filter.mpr ⟨h, by simp⟩)
  omega

theorem durable_clean (d : Disk) : d.durable.now.Clean := ⟨lenOf_closed d, lenOf_open d⟩

/-- Calls other than writes keep a directory that is entirely on the disk so. -/
theorem clean_call (s : Snap) (a : Act) (h : s.Clean) (hk : Keys s.d) (hk' : Keys (a.apply s.d))
    (hw : ∀ f bs, a ≠ .write f bs) : (s.call a).Clean := by
  obtain ⟨hc, ho⟩ := h
  unfold Snap.call Snap.Clean
  dsimp only
  cases a with
  | saveMeta n => exact ⟨hc, ho⟩
  | write f bs => exact absurd rfl (hw f bs)
  | create f =>
    refine ⟨?_, ?_⟩
    · intro x hx
      have hx' : x ∈ s.d.closed := hx
      have hne : x.first ≠ f := by
        have := hk'.co x hx (f, []) (by simp [Act.apply])
        simpa using this
      simp only [synAfter]
      rw [upd_ne _ _ _ _ hne]; exact hc x hx'
    · intro x hx
      simp only [Act.apply, List.mem_append, List.mem_filter, List.mem_singleton] at hx
      rcases hx with ⟨hx, hx2⟩ | hx
      · simp only [Bool.not_eq_true', decide_eq_false_iff_not] at hx2
        simp only [synAfter]
        rw [upd_ne _ _ _ _ hx2]; exact ho x hx
      · rw [hx]; simp
  | close f l =>
    simp only [synAfter, Act.apply]
    cases hfd : s.d.opens.find? (fun x => decide (x.1 = f)) with
    | none => exact ⟨hc, ho⟩
    | some x =>
      have hxm := List.mem_of_find?_eq_some hfd
      have hxf : x.1 = f := by simpa using List.find?_some hfd
      refine ⟨?_, ?_⟩
      · intro y hy
        dsimp only at hy
        rw [mem_insertC] at hy
        rcases hy with hy | hy
        · rw [hy]; dsimp only; rw [← hxf]; exact ho x hxm
        · exact hc y (List.mem_filter.mp hy).1
      · intro y hy
        exact ho y (List.mem_filter.mp hy).1
  | reopen f l =>
    simp only [synAfter, Act.apply]
    cases hfd : s.d.closed.find? (isC f l) with
    | none => exact ⟨hc, ho⟩
    | some x =>
      have hxm := List.mem_of_find?_eq_some hfd
      have hxf : x.first = f := by
        have := List.find?_some hfd
        simp [isC] at this
        exact this.1
      refine ⟨?_, ?_⟩
      · intro y hy
        exact hc y (List.mem_filter.mp hy).1
      · intro y hy
        dsimp only at hy
        rcases List.mem_append.mp hy with hy | hy
        · exact ho y (List.mem_filter.mp hy).1
        · simp only [List.mem_singleton] at hy
          rw [hy]; dsimp only; rw [← hxf]; exact hc x hxm
  | cut f size =>
    simp only [synAfter, Act.apply]
    by_cases he : s.d.opens.any (fun x => decide (x.1 = f)) = true
    · rw [if_pos he]
      obtain ⟨z, hz, hzf⟩ := List.any_eq_true.mp he
      have hzf : z.1 = f := by simpa using hzf
      refine ⟨?_, ?_⟩
      · intro x hx
        have hne : x.first ≠ f := by rw [← hzf]; exact hk.co x hx z hz
        rw [upd_ne _ _ _ _ hne]; exact hc x hx
      · intro y hy
        obtain ⟨x, hx, rfl⟩ := List.mem_map.mp hy
        by_cases hxf : x.1 = f
        · rw [if_pos hxf]
          dsimp only
          rw [hxf, upd_self, List.length_take]
          have := ho x hx
          rw [hxf] at this
          omega
        · rw [if_neg hxf, upd_ne _ _ _ _ hxf]; exact ho x hx
    · rw [if_neg he]
      refine ⟨hc, ?_⟩
      intro y hy
      obtain ⟨x, hx, rfl⟩ := List.mem_map.mp hy
      by_cases hxf : x.1 = f
      · exfalso; apply he; exact List.any_eq_true.mpr ⟨x, hx, by simpa using hxf⟩
      · rw [if_neg hxf]; exact ho x hx
  | cutClosed f l size =>
    simp only [synAfter, Act.apply]
    by_cases he : s.d.closed.any (isC f l) = true
    · rw [if_pos he]
      obtain ⟨z, hz, hzf⟩ := List.any_eq_true.mp he
      have hzf' : z.first = f := by simp [isC] at hzf; exact hzf.1
      refine ⟨?_, ?_⟩
      · intro y hy
        obtain ⟨x, hx, rfl⟩ := List.mem_map.mp hy
        by_cases hxf : x.first = f
        · have hxz : x = z := hk.cc x hx z hz (by rw [hxf, hzf'])
          have hxi : isC f l x = true := by rw [hxz]; exact hzf
          rw [if_pos hxi]
          dsimp only
          rw [hxf, upd_self, List.length_take]
          have := hc x hx
          rw [hxf] at this
          omega
        · have hxi : ¬ (isC f l x = true) := by simp [isC, hxf]
          rw [if_neg hxi, upd_ne _ _ _ _ hxf]; exact hc x hx
      · intro y hy
        have hne : y.1 ≠ f := by rw [← hzf']; exact fun h => hk.co z hz y hy h.symm
        rw [upd_ne _ _ _ _ hne]; exact ho y hy
    · rw [if_neg he]
      refine ⟨?_, ho⟩
      intro y hy
      obtain ⟨x, hx, rfl⟩ := List.mem_map.mp hy
      by_cases hxi : isC f l x = true
      · exfalso; apply he; exact List.any_eq_true.mpr ⟨x, hx, hxi⟩
      · rw [if_neg hxi]; exact hc x hx
  | rmClosed f l =>
    simp only [synAfter, Act.apply]
    exact ⟨fun x hx => hc x (List.mem_filter.mp hx).1, ho⟩
  | rmOpen f =>
    simp only [synAfter, Act.apply]
    exact ⟨hc, fun x hx => ho x (List.mem_filter.mp hx).1⟩

theorem map_id_of {α : Type} (l : List α) (g : α → α) (h : ∀ x ∈ l, g x = x) : l.map g = l := by
  induction l with
  | nil => rfl
  | cons x xs ih =>
    rw [List.map_cons, h x (List.mem_cons_self ..), ih (fun y hy => h y (List.mem_cons_of_mem _ hy))]

theorem clean_lost (s : Snap) (h : s.Clean) (d' : Disk) (hl : s.Lost d') : d' = s.d := by
  obtain ⟨cut, hcut, hd⟩ := hl
  obtain ⟨hc, ho⟩ := h
  rw [hd]
  unfold Disk.cutAll
  have h1 : s.d.closed.map (fun x => { x with data := x.data.take (cut x.first) }) = s.d.closed := by
    apply map_id_of
    intro x hx
    have h1 := hc x hx
    have h2 := hcut x.first
    rw [List.take_of_length_le (by omega)]
  have h2 : s.d.opens.map (fun x => (x.1, x.2.take (cut x.1))) = s.d.opens := by
    apply map_id_of
    intro x hx
    have h1 := ho x hx
    have h2 := hcut x.1
    rw [List.take_of_length_le (by omega)]
  rw [h1, h2]

/-- Without unsynced bytes nothing is lost of the present state. -/
theorem lost_self (s : Snap) : s.Lost s.d := by
  refine ⟨fun f => max (s.syn f) (s.d.lenOf f), fun f => Nat.le_max_left _ _, ?_⟩
  unfold Disk.cutAll
  have h1 : s.d.closed.map (fun x => { x with data := x.data.take (max (s.syn x.first) (s.d.lenOf x.first)) }) = s.d.closed := by
    apply map_id_of
    intro x hx
    have h1 := lenOf_closed s.d x hx
    rw [List.take_of_length_le (by omega)]
  have h2 : s.d.opens.map (fun x => (x.1, x.2.take (max (s.syn x.1) (s.d.lenOf x.1)))) = s.d.opens := by
    apply map_id_of
    intro x hx
    have h1 := lenOf_open s.d x hx
    rw [List.take_of_length_le (by omega)]
  rw [h1, h2]

/-! ### What a power failure may leave, along a list of calls -/

/-- Whatever a power failure leaves has the property. -/
def AllLost (Q : Disk → Prop) (p : PDisk) : Prop := ∀ d', p.Fail d' → Q d'

/-- ... at every point of a list of calls. -/
def Always (Q : Disk → Prop) (p : PDisk) (as : List PAct) : Prop :=
  ∀ pre, pre <+: as → AllLost Q (p.run pre)

theorem AllLost.mono {Q R : Disk → Prop} {p : PDisk} (h : AllLost Q p) (hqr : ∀ d, Q d → R d) : AllLost R p :=
  fun d' hd => hqr _ (h d' hd)

theorem always_nil {Q : Disk → Prop} {p : PDisk} (h : AllLost Q p) : Always Q p [] := by
  intro pre hp
  rw [List.prefix_nil.mp hp]; exact h

theorem always_cons {Q : Disk → Prop} {p : PDisk} {a : PAct} {as : List PAct} (h : AllLost Q p)
    (ht : Always Q (p.step a) as) : Always Q p (a :: as) := by
  intro pre hp
  cases pre with
  | nil => exact h
  | cons b pre =>
    obtain ⟨r, hr⟩ := hp
    simp only [List.cons_append, List.cons.injEq] at hr
    obtain ⟨rfl, hr⟩ := hr
    exact ht pre ⟨r, hr⟩

theorem always_append {Q : Disk → Prop} {p : PDisk} {a b : List PAct} (ha : Always Q p a)
    (hb : Always Q (p.run a) b) : Always Q p (a ++ b) := by
  induction a generalizing p with
  | nil => exact hb
  | cons x xs ih =>
    rw [List.cons_append]
    refine always_cons (ha [] (List.nil_prefix)) (ih ?_ hb)
    intro pre hp
    have := ha (x :: pre) (by obtain ⟨r, hr⟩ := hp; exact ⟨r, by rw [List.cons_append, hr]⟩)
    exact this

theorem Always.done {Q : Disk → Prop} {p : PDisk} {a : List PAct} (h : Always Q p a) : AllLost Q (p.run a) :=
  h a (List.prefix_refl _)

theorem run_append (p : PDisk) (a b : List PAct) : p.run (a ++ b) = (p.run a).run b := by
  simp [PDisk.run, List.foldl_append]

theorem run_cons (p : PDisk) (a : PAct) (b : List PAct) : p.run (a :: b) = (p.step a).run b := rfl

theorem run_nil (p : PDisk) : p.run [] = p := rfl

theorem allLost_call {Q : Disk → Prop} {p : PDisk} {a : Act} (h : AllLost Q p)
    (hn : ∀ d', (p.now.call a).Lost d' → Q d') : AllLost Q (p.step (.call a)) := by
  rintro d' ⟨s, hs, hl⟩
  rcases hs with hs | hs
  · rw [hs] at hl; exact hn d' hl
  · rcases List.mem_cons.mp hs with hs | hs
    · exact h d' ⟨s, Or.inl hs, hl⟩
    · exact h d' ⟨s, Or.inr hs, hl⟩

/-- A sync only takes possibilities away. -/
theorem fsync_lost (s : Snap) (f : Nat) (d' : Disk) (h : Snap.Lost ⟨s.d, upd s.syn f (s.d.lenOf f)⟩ d') :
    s.Lost d' := by
  obtain ⟨cut, hcut, hd⟩ := h
  dsimp only at hcut hd
  have hf : s.d.lenOf f ≤ cut f := by have := hcut f; rwa [upd_self] at this
  refine ⟨fun g => if g = f then max (cut f) (s.syn f) else cut g, ?_, ?_⟩
  · intro g
    by_cases hg : g = f
    · subst hg; dsimp only; rw [if_pos rfl]; exact Nat.le_max_right _ _
    · dsimp only; rw [if_neg hg]; have := hcut g; rwa [upd_ne _ _ _ _ hg] at this
  · rw [hd]
    unfold Disk.cutAll
    have h1 : s.d.closed.map (fun x => { x with data := x.data.take (cut x.first) }) =
        s.d.closed.map (fun x => { x with data := x.data.take (if x.first = f then max (cut f) (s.syn f) else cut x.first) }) := by
      apply List.map_congr_left
      intro x hx
      by_cases hxf : x.first = f
      · have hl := lenOf_closed s.d x hx
        rw [if_pos hxf, hxf] at *
        rw [List.take_of_length_le (by omega), List.take_of_length_le (by omega)]
      · rw [if_neg hxf]
    have h2 : s.d.opens.map (fun x => (x.1, x.2.take (cut x.1))) =
        s.d.opens.map (fun x => (x.1, x.2.take (if x.1 = f then max (cut f) (s.syn f) else cut x.1))) := by
      apply List.map_congr_left
      intro x hx
      by_cases hxf : x.1 = f
      · have hl := lenOf_open s.d x hx
        rw [if_pos hxf, hxf] at *
        rw [List.take_of_length_le (by omega), List.take_of_length_le (by omega)]
      · rw [if_neg hxf]
    rw [h1, h2]

theorem allLost_fsync {Q : Disk → Prop} {p : PDisk} (f : Nat) (h : AllLost Q p) : AllLost Q (p.step (.fsync f)) := by
  rintro d' ⟨s, hs, hl⟩
  rcases hs with hs | hs
  · rw [hs] at hl
    exact h d' ⟨p.now, Or.inl rfl, fsync_lost _ _ _ hl⟩
  · cases hs

theorem allLost_commit {Q : Disk → Prop} {p : PDisk} (h : AllLost Q p) : AllLost Q (p.step .commit) := by
  rintro d' ⟨s, hs, hl⟩
  rcases hs with hs | hs
  · exact h d' ⟨s, Or.inl hs, hl⟩
  · cases hs

theorem clean_fsync (s : Snap) (f : Nat) (h : s.Clean) : Snap.Clean ⟨s.d, upd s.syn f (s.d.lenOf f)⟩ := by
  obtain ⟨hc, ho⟩ := h
  refine ⟨?_, ?_⟩
  · intro x hx
    dsimp only at hx ⊢
    by_cases hxf : x.first = f
    · rw [hxf, upd_self, ← hxf]; exact lenOf_closed _ _ hx
    · rw [upd_ne _ _ _ _ hxf]; exact hc x hx
  · intro x hx
    dsimp only at hx ⊢
    by_cases hxf : x.1 = f
    · rw [hxf, upd_self, ← hxf]; exact lenOf_open _ _ hx
    · rw [upd_ne _ _ _ _ hxf]; exact ho x hx

theorem closedClean_fsync (s : Snap) (f : Nat) (h : s.ClosedClean) :
    Snap.ClosedClean ⟨s.d, upd s.syn f (s.d.lenOf f)⟩ := by
  intro x hx
  dsimp only at hx ⊢
  by_cases hxf : x.first = f
  · rw [hxf, upd_self, ← hxf]; exact lenOf_closed _ _ hx
  · rw [upd_ne _ _ _ _ hxf]; exact h x hx

/-- The syncs inside an operation: an optional sync, then the call. -/
theorem acts_shape (fl : SyncFlags) (a : Act) :
    fl.acts a = [.call a] ∨ (∃ f, fl.acts a = [.fsync f, .call a]) ∨ fl.acts a = [.commit, .call a] := by
  cases a with
  | close f l =>
    simp only [SyncFlags.acts]
    by_cases h : f < l ∧ fl.syncSegs = true ∧ fl.enable = true
    · rw [if_pos h]; exact Or.inr (Or.inl ⟨f, rfl⟩)
    · rw [if_neg h]; exact Or.inl rfl
  | saveMeta n =>
    simp only [SyncFlags.acts]
    by_cases h : fl.raftSync = true ∨ fl.syncMeta = true
    · rw [if_pos h]; exact Or.inr (Or.inr rfl)
    · rw [if_neg h]; exact Or.inl rfl
  | _ => exact Or.inl rfl

theorem allActs_cons (fl : SyncFlags) (a : Act) (as : List Act) :
    fl.allActs (a :: as) = fl.acts a ++ fl.allActs as := by simp [SyncFlags.allActs]

theorem allActs_append (fl : SyncFlags) (a b : List Act) :
    fl.allActs (a ++ b) = fl.allActs a ++ fl.allActs b := by simp [SyncFlags.allActs]

/-- Operations without writes, from a directory that is entirely on the disk. -/
theorem clean_run (fl : SyncFlags) (Q : Disk → Prop) (as : List Act) (p : PDisk)
    (hw : ∀ f bs, Act.write f bs ∉ as) (hcl : p.now.Clean)
    (hP : ∀ d', Crash d' p.now.d as → Q d' ∧ Keys d') (hq : AllLost Q p) :
    Always Q p (fl.allActs as) ∧ (p.run (fl.allActs as)).now.Clean ∧
      (p.run (fl.allActs as)).now.d = applyAll p.now.d as := by
  induction as generalizing p with
  | nil => exact ⟨always_nil hq, hcl, rfl⟩
  | cons a as ih =>
    have hk := (hP _ (Or.inl rfl)).2
    have hka : Q (a.apply p.now.d) ∧ Keys (a.apply p.now.d) := hP _ (Or.inr (Or.inr (crash_self _ _)))
    have hwa : ∀ f bs, a ≠ .write f bs := fun f bs h => hw f bs (by rw [h]; exact List.mem_cons_self ..)
    -- one call from a state `q` with the same directory
    have main : ∀ q : PDisk, q.now.d = p.now.d → q.now.Clean → AllLost Q q →
        Always Q q (.call a :: fl.allActs as) ∧ (q.run (.call a :: fl.allActs as)).now.Clean ∧
          (q.run (.call a :: fl.allActs as)).now.d = applyAll p.now.d (a :: as) := by
      intro q hqd hqc hqq
      have hk' : Keys q.now.d := by rw [hqd]; exact hk
      have hka' : Keys (a.apply q.now.d) := by rw [hqd]; exact hka.2
      have hcc : (q.step (.call a)).now.Clean := clean_call q.now a hqc hk' hka' hwa
      have hd1 : (q.step (.call a)).now.d = a.apply p.now.d := by
        show a.apply q.now.d = _
        rw [hqd]
      have hq1 : AllLost Q (q.step (.call a)) := by
        apply allLost_call hqq
        intro d' hl
        rw [clean_lost (q.now.call a) hcc d' hl, show (q.now.call a).d = a.apply q.now.d from rfl, hqd]
        exact hka.1
      have := ih (q.step (.call a)) (fun f bs h => hw f bs (List.mem_cons_of_mem _ h)) hcc
        (by rw [hd1]; exact fun d' hc => hP d' (Or.inr (Or.inr hc))) hq1
      obtain ⟨h1, h2, h3⟩ := this
      refine ⟨always_cons hqq h1, h2, ?_⟩
      rw [run_cons, h3, hd1]; rfl
    rw [allActs_cons]
    rcases acts_shape fl a with h | ⟨f, h⟩ | h <;> rw [h]
    · exact main p rfl hcl hq
    · obtain ⟨h1, h2, h3⟩ := main (p.step (.fsync f)) rfl (clean_fsync _ _ hcl) (allLost_fsync f hq)
      exact ⟨always_cons hq h1, h2, h3⟩
    · obtain ⟨h1, h2, h3⟩ := main (p.step .commit) rfl hcl (allLost_commit hq)
      exact ⟨always_cons hq h1, h2, h3⟩

/-- ... at every point of it. -/
theorem clean_prefix (fl : SyncFlags) (Q : Disk → Prop) (as : List Act) (p : PDisk)
    (hw : ∀ f bs, Act.write f bs ∉ as) (hcl : p.now.Clean)
    (hP : ∀ d', Crash d' p.now.d as → Q d' ∧ Keys d') (pre : List PAct) (hpre : pre <+: fl.allActs as) :
    (p.run pre).now.Clean := by
  induction as generalizing p pre with
  | nil =>
    rw [show pre = [] from List.prefix_nil.mp hpre]; exact hcl
  | cons a as ih =>
    have hk := (hP _ (Or.inl rfl)).2
    have hka : Q (a.apply p.now.d) ∧ Keys (a.apply p.now.d) := hP _ (Or.inr (Or.inr (crash_self _ _)))
    have hwa : ∀ f bs, a ≠ .write f bs := fun f bs h => hw f bs (by rw [h]; exact List.mem_cons_self ..)
    have main : ∀ q : PDisk, q.now.d = p.now.d → q.now.Clean → ∀ pre, pre <+: .call a :: fl.allActs as →
        (q.run pre).now.Clean := by
      intro q hqd hqc pre hpre
      cases pre with
      | nil => exact hqc
      | cons x pre =>
        obtain ⟨r, hr⟩ := hpre
        simp only [List.cons_append, List.cons.injEq] at hr
        obtain ⟨rfl, hr⟩ := hr
        have hcc : (q.step (.call a)).now.Clean := clean_call q.now a hqc (by rw [hqd]; exact hk)
          (by rw [hqd]; exact hka.2) hwa
        have hd1 : (q.step (.call a)).now.d = a.apply p.now.d := by
          show a.apply q.now.d = _
          rw [hqd]
        exact ih (q.step (.call a)) (fun f bs h => hw f bs (List.mem_cons_of_mem _ h)) hcc
          (by rw [hd1]; exact fun d' hc => hP d' (Or.inr (Or.inr hc))) pre ⟨r, hr⟩
    rw [allActs_cons] at hpre
    have sync : ∀ y : PAct, (p.step y).now.d = p.now.d → (p.step y).now.Clean →
        pre <+: y :: .call a :: fl.allActs as → (p.run pre).now.Clean := by
      intro y hy hyc hp
      cases pre with
      | nil => exact hcl
      | cons x pre =>
        obtain ⟨r, hr⟩ := hp
        simp only [List.cons_append, List.cons.injEq] at hr
        obtain ⟨rfl, hr⟩ := hr
        exact main (p.step x) hy hyc pre ⟨r, hr⟩
    rcases acts_shape fl a with h | ⟨f, h⟩ | h <;> rw [h] at hpre
    · exact main p rfl hcl pre hpre
    · exact sync (.fsync f) rfl (clean_fsync _ _ hcl) hpre
    · exact sync .commit rfl hcl hpre

end Braft.Store
