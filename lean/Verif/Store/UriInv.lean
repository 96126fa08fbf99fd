import Verif.Store.Uri
/-
Lemmas about storage URIs, places and gc.
-/
set_option linter.unusedVariables false
set_option linter.unusedSimpArgs false

namespace Braft.Uri
open Braft.Text (isSpace splitOn printInt)
open Braft.Paths (Comp resolve)

variable {B M : Type}

/-! ## Texts -/

theorem cut_eq {pat : Str} : ∀ {s a b : Str}, cut pat s = some (a, b) → s = a ++ pat ++ b
  | [], a, b, h => by
    unfold cut at h; split at h
    · next e => cases h; simp [e]
    · cases h
  | c :: s, a, b, h => by
    unfold cut at h; split at h
    · next e =>
      cases h
      obtain ⟨t, ht⟩ := List.isPrefixOf_iff_prefix.1 e
      rw [← ht]; simp
    · split at h
      · next a' b' e => cases h; rw [cut_eq e]; simp
      · cases h

/-- Does `pat` begin somewhere inside `a` in `a ++ pat ++ b`? -/
theorem cut_append {pat : Str} (hp : pat ≠ []) : ∀ (a b : Str),
    (∀ x y, a = x ++ y → y ≠ [] → ¬ pat <+: y ++ pat ++ b) → cut pat (a ++ pat ++ b) = some (a, b)
  | [], b, h => by
    cases pat with
    | nil => exact absurd rfl hp
    | cons c p =>
      show cut (c :: p) (c :: (p ++ b)) = _
      unfold cut
      rw [if_pos (List.isPrefixOf_iff_prefix.2 ⟨b, by simp⟩)]; simp
  | c :: a, b, h => by
    show cut pat (c :: (a ++ pat ++ b)) = _
    unfold cut
    have h0 := h [] (c :: a) rfl (by simp)
    rw [if_neg (by intro e; exact h0 (List.isPrefixOf_iff_prefix.1 (by simpa using e)))]
    rw [cut_append hp a b (fun x y e hy => h (c :: x) y (by rw [e]; rfl) hy)]

theorem cut_none {pat : Str} (hp : pat ≠ []) : ∀ {s : Str}, ¬ pat <:+: s → cut pat s = none
  | [], h => by unfold cut; rw [if_neg hp]
  | c :: s, h => by
    unfold cut
    rw [if_neg (by intro e; exact h (List.isPrefixOf_iff_prefix.1 e).isInfix)]
    rw [cut_none hp (fun e => h (e.trans (List.suffix_cons c s).isInfix))]

/-! ## Places -/

theorem resolve_append {A : Type} : ∀ (d : List A) (l r : List (Comp A)), resolve d (l ++ r) = resolve (resolve d l) r
  | d, [], r => rfl
  | d, .here :: l, r => resolve_append d l r
  | d, .up :: l, r => resolve_append _ l r
  | d, .name a :: l, r => resolve_append _ l r

theorem splitOn_last (c : Char) : ∀ (s : Str), ∃ l x, splitOn c s = l ++ [x] ∧
    ∀ t, c ∉ t → splitOn c (s ++ t) = l ++ [x ++ t]
  | [] => ⟨[], [], rfl, fun t ht => by simpa using Text.splitOn_no_sep ht⟩
  | a :: s => by
    obtain ⟨l, x, h1, h2⟩ := splitOn_last c s
    by_cases ha : a = c
    · refine ⟨[] :: l, x, ?_, fun t ht => ?_⟩
      · simp [splitOn, ha, h1]
      · simp [splitOn, ha, h2 t ht]
    · cases l with
      | nil =>
        refine ⟨[], a :: x, ?_, fun t ht => ?_⟩
        · simp [splitOn, ha, h1]
        · have := h2 t ht; simp at this; simp [splitOn, ha, this]
      | cons y l =>
        refine ⟨(a :: y) :: l, x, ?_, fun t ht => ?_⟩
        · simp [splitOn, ha, h1]
        · simp [splitOn, ha, h2 t ht]

theorem splitOn_sep (c : Char) : ∀ (a b : Str), splitOn c (a ++ c :: b) = splitOn c a ++ splitOn c b
  | [], b => by simp [splitOn]
  | x :: a, b => by
    have ih := splitOn_sep c a b
    by_cases hx : x = c
    · simp [splitOn, hx, ih]
    · simp only [List.cons_append, splitOn, hx, if_false, ih]
      cases h : splitOn c a with
      | nil => exact absurd h (Text.splitOn_ne_nil c a)
      | cons y l => simp [h, hx]

/-- The last component of a path and the directory it is in, and where the temporary path is. -/
theorem place_parts (cwd : Place) {p : Str} (hp : p ≠ []) : ∃ d x,
    (splitOn '/' p).getLast? = some x ∧ place cwd p = resolve d [comp x] ∧
    place cwd (tmpOf p) = d ++ [x ++ ".tmp".toList] := by
  obtain ⟨l, x, h1, h2⟩ := splitOn_last '/' p
  have hh : (tmpOf p).head? = p.head? := by
    cases p with
    | nil => exact absurd rfl hp
    | cons a p => rfl
  refine ⟨resolve (if p.head? = some '/' then [] else cwd) (l.map comp), x, by simp [h1], ?_, ?_⟩
  · unfold place; rw [h1, List.map_append, resolve_append]; rfl
  · unfold place; rw [hh]; unfold tmpOf
    rw [h2 _ (by decide), List.map_append, resolve_append]
    have : comp (x ++ ".tmp".toList) = .name (x ++ ".tmp".toList) := by
      unfold comp
      rw [if_neg, if_neg, if_neg]
      · intro e; have := congrArg List.length e; simp at this
      · intro e; have := congrArg List.length e; simp at this
      · intro e; have := congrArg List.length e; simp at this
    show resolve _ [comp (x ++ ".tmp".toList)] = _
    rw [this]; rfl

theorem append_tmp_ne (x : Str) : x ≠ x ++ ".tmp".toList := by
  intro e; have := congrArg List.length e; simp at this

/-- The last component is a name: the temporary path is its sibling. -/
theorem plain_apart {cwd : Place} {p x : Str} (hp : p ≠ []) (hl : (splitOn '/' p).getLast? = some x)
    (hx : comp x = .name x) :
    ¬ place cwd p <+: place cwd (tmpOf p) ∧ ¬ place cwd (tmpOf p) <+: place cwd p := by
  obtain ⟨d, y, h1, h2, h3⟩ := place_parts cwd hp
  rw [hl] at h1; cases h1
  rw [h2, h3, hx]; simp only [resolve]
  constructor
  · intro h
    have e := h.eq_of_length (by simp)
    have := List.append_cancel_left e
    exact append_tmp_ne x (by simpa using this)
  · intro h
    have e := h.eq_of_length (by simp)
    have := List.append_cancel_left e
    exact append_tmp_ne x (by simpa using this.symm)

/-- The last component is empty, `.` or `..`: the temporary path lies in the directory. -/
theorem not_plain_inside {cwd : Place} {p x : Str} (hp : p ≠ []) (hl : (splitOn '/' p).getLast? = some x)
    (hx : comp x ≠ .name x) : place cwd p <+: place cwd (tmpOf p) := by
  obtain ⟨d, y, h1, h2, h3⟩ := place_parts cwd hp
  rw [hl] at h1; cases h1
  rw [h2, h3]
  have : comp x = .here ∨ comp x = .up := by
    unfold comp at hx ⊢
    by_cases e1 : x = []
    · left; rw [if_pos e1]
    · by_cases e2 : x = ['.']
      · left; rw [if_neg e1, if_pos e2]
      · by_cases e3 : x = ['.', '.']
        · right; rw [if_neg e1, if_neg e2, if_pos e3]
        · rw [if_neg e1, if_neg e2, if_neg e3] at hx; exact absurd rfl hx
  rcases this with e | e
  · rw [e]; exact List.prefix_append _ _
  · rw [e]; exact (List.dropLast_prefix d).trans (List.prefix_append _ _)

/-- Two places, one not above the other, have no place below both. -/
theorem no_common {a b q : Place} (h1 : ¬ a <+: b) (h2 : ¬ b <+: a) (ha : a <+: q) : ¬ b <+: q := by
  intro hb
  rcases List.prefix_or_prefix_of_prefix ha hb with h | h
  · exact h1 h
  · exact h2 h

/-! ## gc_dir -/

theorem del_in {f : Fs B} {p q : Place} (h : p <+: q) : f.del p q = none := by unfold Fs.del; rw [if_pos h]
theorem del_out {f : Fs B} {p q : Place} (h : ¬ p <+: q) : f.del p q = f q := by unfold Fs.del; rw [if_neg h]

/-- Places outside the path and the temporary path are left alone. -/
theorem gcDir_frame {cwd : Place} {p : Str} {f g : Fs B} {r : Res} (h : GcDir cwd p f r g) {q : Place}
    (h1 : ¬ (p ≠ [] ∧ place cwd p <+: q)) (h2 : ¬ place cwd (tmpOf p) <+: q) : g q = f q := by
  cases h with
  | tmpFails hd =>
    rcases hd q with e | ⟨e, _⟩
    · exact e
    · exact absurd e h2
  | absent _ => exact del_out h2
  | renFails => exact del_out h2
  | delFails hp _ _ hd =>
    have h1' : ¬ place cwd p <+: q := fun e => h1 ⟨hp, e⟩
    rcases hd q with e | ⟨e, _⟩
    · rw [e]; unfold Fs.ren; rw [if_neg h2, if_neg h1']; exact del_out h2
    · exact absurd e h2
  | done hp _ _ =>
    have h1' : ¬ place cwd p <+: q := fun e => h1 ⟨hp, e⟩
    rw [del_out h2]; unfold Fs.ren; rw [if_neg h2, if_neg h1']; exact del_out h2

/-- A successful gc_dir leaves everything where it is or removes it. -/
theorem gcDir_mono {cwd : Place} {p : Str} {f g : Fs B} (h : GcDir cwd p f .ok g) (q : Place) :
    g q = f q ∨ g q = none := by
  cases h with
  | absent _ =>
    by_cases e : place cwd (tmpOf p) <+: q
    · exact .inr (del_in e)
    · exact .inl (del_out e)
  | done hp _ _ =>
    by_cases e : place cwd (tmpOf p) <+: q
    · exact .inr (del_in e)
    · rw [del_out e]; unfold Fs.ren; rw [if_neg e]
      split
      · exact .inr rfl
      · exact .inl (del_out e)

/-- File trees: what has a child is there. -/
def Fs.Tree (f : Fs B) : Prop := ∀ a b, f (a ++ b) ≠ none → f a ≠ none

theorem tree_del {f : Fs B} (h : f.Tree) (p : Place) : (f.del p).Tree := by
  intro a b hab
  have hn : ¬ p <+: a ++ b := by intro e; exact hab (del_in e)
  rw [del_out hn] at hab
  rw [del_out (fun e => hn (e.trans (List.prefix_append _ _)))]
  exact h a b hab

/-- After a successful gc_dir nothing is left at the path. -/
theorem gcDir_gone {cwd : Place} {p : Str} {f g : Fs B} (ht : f.Tree) (hp : p ≠ []) (h : GcDir cwd p f .ok g) {q : Place}
    (hq : place cwd p <+: q) : g q = none := by
  cases h with
  | absent ha =>
    rcases ha with e | e
    · exact absurd e hp
    · obtain ⟨t, rfl⟩ := hq
      cases hv : (f.del (place cwd (tmpOf p))) (place cwd p ++ t) with
      | none => rfl
      | some v => exact absurd e (tree_del ht _ _ t (by rw [hv]; simp))
  | done _ _ _ =>
    by_cases e : place cwd (tmpOf p) <+: q
    · exact del_in e
    · rw [del_out e]; unfold Fs.ren; rw [if_neg e, if_pos hq]

/-- Whatever happens, the tree at a plain path is complete or gone. -/
theorem gcDir_atomic {cwd : Place} {p : Str} {f g : Fs B} {r : Res} (ht : f.Tree) (hp : p ≠ [])
    (h1 : ¬ place cwd p <+: place cwd (tmpOf p)) (h2 : ¬ place cwd (tmpOf p) <+: place cwd p)
    (h : GcDir cwd p f r g) :
    (∀ q, place cwd p <+: q → g q = f q) ∨ (∀ q, place cwd p <+: q → g q = none) := by
  have hd : ∀ q, place cwd p <+: q → ¬ place cwd (tmpOf p) <+: q := fun q hq => no_common h1 h2 hq
  cases h with
  | tmpFails hd' =>
    left; intro q hq
    rcases hd' q with e | ⟨e, _⟩
    · exact e
    · exact absurd e (hd q hq)
  | absent _ => left; intro q hq; exact del_out (hd q hq)
  | renFails => left; intro q hq; exact del_out (hd q hq)
  | delFails hp _ _ hd' =>
    right; intro q hq
    rcases hd' q with e | ⟨e, _⟩
    · rw [e]; unfold Fs.ren; rw [if_neg (hd q hq), if_pos hq]
    · exact absurd e (hd q hq)
  | done hp _ _ =>
    right; intro q hq
    rw [del_out (hd q hq)]; unfold Fs.ren; rw [if_neg (hd q hq), if_pos hq]

/-- A path whose temporary path lies inside can not be collected while there is something. -/
theorem gcDir_stuck {cwd : Place} {p : Str} {f g : Fs B} {r : Res} (hp : p ≠ [])
    (h1 : place cwd p <+: place cwd (tmpOf p)) (h0 : f (place cwd p) ≠ none)
    (hne : place cwd (tmpOf p) ≠ place cwd p) (h : GcDir cwd p f r g) : r = .fail := by
  cases h with
  | tmpFails _ => rfl
  | renFails => rfl
  | delFails _ _ _ _ => rfl
  | absent ha =>
    rcases ha with e | e
    · exact absurd e hp
    · rw [del_out] at e
      · exact absurd e h0
      · intro e'
        exact hne (e'.eq_of_length (Nat.le_antisymm e'.length_le h1.length_le))
  | done _ _ hn => exact absurd h1 hn

/-! ## RemKey -/

theorem remKey_fs {cwd : Place} {path key : Str} {w w' : World B M} {r : Res} (h : RemKey cwd path key w r w') :
    w'.fs = w.fs ∧ w'.open_ = w.open_ ∧ w'.uninit = w.uninit := by
  cases h <;> exact ⟨rfl, rfl, rfl⟩

theorem remKey_frame {cwd : Place} {path key : Str} {w w' : World B M} {r : Res} (h : RemKey cwd path key w r w')
    {a : Place} {k : Str} (hk : ¬ (a = place cwd path ∧ k = key)) : w'.db a k = w.db a k := by
  cases h with
  | absent _ _ => rfl
  | fails _ => rfl
  | done r hm => show delKey _ _ _ _ _ = _; unfold delKey; rw [if_neg hk]

theorem remKey_gone {cwd : Place} {path key : Str} {w w' : World B M} (h : RemKey cwd path key w .ok w')
    (ho : path ∈ w.open_ ∨ path ∈ w.uninit) : w'.db (place cwd path) key = none := by
  cases h with
  | absent h1 h2 => rcases ho with e | e; exact absurd e h1; exact absurd e h2
  | done _ hm => show delKey _ _ _ _ _ = _; unfold delKey; rw [if_pos ⟨rfl, rfl⟩]

theorem gcDirW_db {cwd : Place} {p : Str} {w w' : World B M} {r : Res} (h : GcDirW cwd p w r w') :
    w'.db = w.db ∧ w'.open_ = w.open_ ∧ w'.uninit = w.uninit ∧ GcDir cwd p w.fs r w'.fs := by
  cases h with
  | mk h => exact ⟨rfl, rfl, rfl, h⟩

/-- Trees stay trees when gc succeeds. -/
theorem tree_gcDir {cwd : Place} {p : Str} {f g : Fs B} (ht : f.Tree) (h : GcDir cwd p f .ok g) : g.Tree := by
  cases h with
  | absent _ => exact tree_del ht _
  | done hp h0 hn =>
    intro a b hab
    have ht1 := tree_del ht (place cwd (tmpOf p))
    by_cases e : place cwd (tmpOf p) <+: a ++ b
    · exact absurd (del_in e) hab
    · rw [del_out e] at hab
      have e' : ¬ place cwd (tmpOf p) <+: a := fun x => e (x.trans (List.prefix_append _ _))
      rw [del_out e']
      unfold Fs.ren at hab ⊢
      rw [if_neg e] at hab; rw [if_neg e']
      by_cases e2 : place cwd p <+: a ++ b
      · rw [if_pos e2] at hab; exact absurd rfl hab
      · rw [if_neg e2] at hab
        rw [if_neg (fun x => e2 (x.trans (List.prefix_append _ _)))]
        exact ht1 a b hab

end Braft.Uri
