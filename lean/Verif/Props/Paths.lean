import Verif.Snap.Paths
/-
C60: the copy of a remote snapshot changes nothing outside the directory it is copied to.

Places are lists of names from the root. `copyOps all ok writer files`: all changes of the file system that the copy of a
snapshot with these file names makes, whatever is decided for each of them (kept, removed, linked, copied).
-/
set_option linter.unusedVariables false
set_option linter.unusedSectionVars false

namespace Braft.Paths
variable {A : Type} [DecidableEq A]

theorem resolve_below (d : List A) (f : List (Comp A)) (h : Comp.up ∉ f) : d <+: resolve d f := by
  induction f generalizing d with
  | nil => exact List.prefix_rfl
  | cons c r ih =>
    have hr : Comp.up ∉ r := fun e => h (List.mem_cons_of_mem _ e)
    cases c with
    | here => exact ih d hr
    | up => exact absurd List.mem_cons_self h
    | name a => exact (List.prefix_append d [a]).trans (ih _ hr)

theorem mkdirs_below (ok : List A → Bool) (d e : List A) (f : List (Comp A)) (he : d <+: e) :
    ∀ o ∈ (mkdirs ok e f).1, d <+: o.target := by
  induction f generalizing e with
  | nil => intro o ho; simp [mkdirs] at ho
  | cons c r ih =>
    have hn : ∀ a, d <+: e ++ [a] := fun a => he.trans (List.prefix_append e [a])
    cases c with
    | here => exact ih e he
    | up => exact ih e he
    | name a =>
      intro o ho
      simp only [mkdirs] at ho
      split at ho
      · rcases List.mem_cons.mp ho with h1 | h1
        · subst h1; exact hn a
        · exact ih _ (hn a) o h1
      · rw [List.mem_singleton.mp ho]; exact hn a

/-- C60. When create_directory has made the directories on the way of a path, the directory the path leads to is one of them, or
on the way to one of them, or the directory it starts from, or on the way to that. -/
theorem createAll_there (ok : List A → Bool) (d : List A) (f : List (Comp A)) (h : (createAll ok d f).2 = true) :
    resolve d f <+: d ∨ ∃ p, Op.mkdir p ∈ (createAll ok d f).1 ∧ resolve d f <+: p := by
  induction f generalizing d with
  | nil => exact Or.inl List.prefix_rfl
  | cons c r ih =>
    cases c with
    | here => exact ih d h
    | up =>
      rcases ih d.dropLast h with h1 | h1
      · exact Or.inl (h1.trans (List.dropLast_prefix d))
      · exact Or.inr h1
    | name a =>
      by_cases ha : ok (d ++ [a]) = true
      · simp only [createAll, ha, if_true] at h ⊢
        right
        rcases ih (d ++ [a]) h with h1 | ⟨p, h1, h2⟩
        · exact ⟨_, List.mem_cons_self, h1⟩
        · exact ⟨p, List.mem_cons_of_mem _ h1, h2⟩
      · simp only [createAll, ha] at h
        simp at h

example : (createAll (fun _ => true) [1] [.name 2, .up, .name 3]).2 = true ∧ resolve [1] [.name 2, .up, .name 3] = [1, 3] ∧
    (createAll (fun _ => true) [1] [.name 2, .up, .name 3]).1 = [.mkdir [1, 2], .mkdir [1, 3]] := by decide

theorem createAll_below (ok : List A → Bool) (d e : List A) (f : List (Comp A)) (he : d <+: e) (h : Comp.up ∉ f) :
    ∀ o ∈ (createAll ok e f).1, d <+: o.target := by
  induction f generalizing e with
  | nil => intro o ho; simp [createAll] at ho
  | cons c r ih =>
    have hr : Comp.up ∉ r := fun e => h (List.mem_cons_of_mem _ e)
    have hn : ∀ a, d <+: e ++ [a] := fun a => he.trans (List.prefix_append e [a])
    cases c with
    | here => exact ih e he hr
    | up => exact absurd List.mem_cons_self h
    | name a =>
      intro o ho
      simp only [createAll] at ho
      split at ho
      · rcases List.mem_cons.mp ho with h1 | h1
        · subst h1; exact hn a
        · exact ih _ (hn a) hr o h1
      · rw [List.mem_singleton.mp ho]; exact hn a

theorem mkdirs_all (ok : List A → Bool) (d : List A) (names : List A) (h : (mkdirs ok d (names.map .name)).2 = true)
    (k : Nat) (hk : 0 < k) (hl : k ≤ names.length) : Op.mkdir (d ++ names.take k) ∈ (mkdirs ok d (names.map .name)).1 := by
  induction names generalizing d k with
  | nil => simp at hl; omega
  | cons a r ih =>
    simp only [List.map_cons, mkdirs] at h ⊢
    split
    · rename_i hok
      rw [if_pos hok] at h
      cases k with
      | zero => omega
      | succ k =>
        simp only [List.take_succ_cons]
        by_cases hz : k = 0
        · subst hz; simp
        · have := ih (d ++ [a]) h k (by omega) (by simpa using hl)
          rw [List.append_assoc] at this
          exact List.mem_cons_of_mem _ this
    · rename_i hok; rw [if_neg hok] at h; simp at h

end Braft.Paths

namespace Braft.Props
open Braft.Paths
variable {A : Type} [DecidableEq A]

/-- C60. create_sub_directory makes no directory outside its parent, whatever the path is. -/
theorem create_sub_directory_stays_inside (ok : List A → Bool) (parent : List A) (sub : List (Comp A)) :
    ∀ o ∈ (createSub ok parent sub).1, parent <+: o.target := by
  intro o ho
  unfold createSub at ho
  split at ho
  · simp at ho
  · exact mkdirs_below ok parent parent sub List.prefix_rfl o ho

/-- C60. When it succeeds every directory on the way was made. -/
theorem create_sub_directory_makes_all (ok : List A → Bool) (parent names : List A)
    (h : (createSub ok parent (names.map .name)).2 = true) (k : Nat) (hk : 0 < k) (hl : k ≤ names.length) :
    Op.mkdir (parent ++ names.take k) ∈ (createSub ok parent (names.map .name)).1 := by
  unfold createSub at h ⊢
  split
  · rename_i hu; rw [if_pos hu] at h; simp at h
  · rename_i hu; rw [if_neg hu] at h; exact mkdirs_all ok parent names h k hk hl

/-- C60. If no file name of the remote snapshot has a component `..`, the copy changes only what is below the directory of
the writer, whatever is decided for each file and whatever calls fail. -/
theorem copy_stays_inside_partial (all : Bool) (ok : List A → Bool) (writer : List A) (files : List (Filter × Bool × List (Comp A)))
    (hf : ∀ f ∈ files, Comp.up ∉ f.2.2) : ∀ o ∈ copyOps all ok writer files, writer <+: o.target := by
  intro o ho
  unfold copyOps at ho
  rcases List.mem_append.mp ho with h | h
  · obtain ⟨f, h1, h2⟩ := List.mem_flatMap.mp h
    have hb := resolve_below writer f.2.2 (hf f h1)
    unfold filterFile at h2
    split at h2
    · simp at h2
    · rw [List.mem_singleton.mp h2]; exact hb
    · simp only [List.mem_cons, List.not_mem_nil, or_false] at h2
      rcases h2 with h2 | h2 <;> (subst h2; exact hb)
  · obtain ⟨f, h1, h2⟩ := List.mem_flatMap.mp h
    split at h2
    · have hu := hf f h1
      have hud : Comp.up ∉ f.2.2.dropLast := fun e => hu (List.dropLast_subset _ e)
      unfold copyFile at h2
      rcases List.mem_append.mp h2 with h3 | h3
      · split at h3
        · simp at h3
        · split at h3
          · exact createAll_below ok writer writer _ List.prefix_rfl hud o h3
          · exact create_sub_directory_stays_inside ok writer _ o h3
      · rw [List.mem_singleton.mp h3]; exact resolve_below writer _ hu
    · simp at h2

/-- C60. So the snapshots beside it stay as they are: nothing in another directory of the snapshot storage is changed. -/
theorem copy_keeps_other_snapshots_partial (all : Bool) (ok : List A → Bool) (path : List A) (temp other : A) (hne : temp ≠ other)
    (files : List (Filter × Bool × List (Comp A))) (hf : ∀ f ∈ files, Comp.up ∉ f.2.2) :
    ∀ o ∈ copyOps all ok (path ++ [temp]) files, ¬ (path ++ [other] <+: o.target) := by
  intro o ho hp
  have h1 := copy_stays_inside_partial all ok (path ++ [temp]) files hf o ho
  have := List.prefix_of_prefix_length_le h1 hp (by simp)
  have e := this.eq_of_length (by simp)
  have := List.append_cancel_left e
  simp at this
  exact hne this

namespace PathsEx
/-- The directory of a storage, `temp`, the last snapshot, a file of it. -/
def storage : List String := ["data", "snapshot"]
def temp : List String := storage ++ ["temp"]
def evil : List (Comp String) := [.up, .name "snapshot_7", .name "kv"]

/-- Non-vacuity: a file in a subdirectory, with either setting. -/
example : copyOps true (fun _ => true) temp [(.remove, true, [.name "a", .name "b"])] =
    [.delete ["data", "snapshot", "temp", "a", "b"], .mkdir ["data", "snapshot", "temp", "a"],
     .trunc ["data", "snapshot", "temp", "a", "b"]] := by decide
example : (createSub (fun _ => true) temp [.name "a", .here, .name "b"]).2 = true := by decide
end PathsEx

/-- C60, the rest is false, with both settings of raft_create_parent_directories: a name with `..` lets the copy truncate a
file of the last snapshot. create_sub_directory refuses the path, but copy_file goes on after that error. -/
theorem copy_leaves_directory : ∀ all, Op.trunc (PathsEx.storage ++ ["snapshot_7", "kv"]) ∈
    copyOps all (fun _ => true) PathsEx.temp [(.keep, true, PathsEx.evil)] := by decide

/-- Also with filter_before_copy_remote: a file of the last snapshot is deleted. -/
theorem filter_leaves_directory : Op.delete (PathsEx.storage ++ ["snapshot_7", "kv"]) ∈
    copyOps true (fun _ => true) PathsEx.temp [(.remove, false, PathsEx.evil)] := by decide

end Braft.Props
