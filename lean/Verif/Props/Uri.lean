import Verif.Store.UriInv
/-
C73: storages are named by their URIs, and gc removes what the URIs of an instance name and nothing else.

Vocabulary: `createLog`, `createMeta`, `createSnap` say which storage a URI opens; `GcRaft T cwd o w r w'`: gc_raft_data with
options `o` from the state `w` may return `r` (or be killed on the way, then `r` is `fail`) and leave `w'`. The theorems
quantify over every outcome, that is over every failing call and every moment at which the process may be killed.
-/
set_option linter.unusedVariables false
set_option linter.unusedSimpArgs false

namespace Braft.Props.Uri
open Braft.Uri
open Braft.Text (isSpace printInt splitOn)
open Braft.Paths (Comp resolve)

variable {B M : Type}

/-! ## Specification -/

/-- A name of a file: no slash, not empty, not `.` and not `..`. -/
def IsName (n : Str) : Prop := '/' ∉ n ∧ n ≠ [] ∧ n ≠ ['.'] ∧ n ≠ ['.', '.']

/-- A path that ends with a name. -/
def Plain (p : Str) : Prop := ∃ n, IsName n ∧ (p = n ∨ ∃ d, p = d ++ '/' :: n)

/-- The directories that the URIs of an instance name. -/
def Dirs (T : Types) (o : GcOptions) (p : Str) : Prop :=
  T.createLog o.log = some (.dir p) ∨ T.createSnap o.snap = some p ∨
    ∃ a, T.createMeta o.metaUri = some a ∧ a.single = some p

/-- A place that gc of the instance may touch: in one of its directories, or in the temporary path of one of them. -/
def Touched (T : Types) (cwd : Place) (o : GcOptions) (q : Place) : Prop :=
  ∃ p, Dirs T o p ∧ (place cwd p <+: q ∨ place cwd (tmpOf p) <+: q)

/-- The types that braft registers (raft.cpp:62-79). -/
def builtin : Types where
  log p := if p = "local".toList then some .segment else if p = "memory".toList then some .memory else none
  metaKind p := if p = "local".toList then some .single else if p = "local-merged".toList then some .merged
    else if p = "local-mixed".toList then some .mixed else none
  snap p := if p = "local".toList then some () else none

theorem Plain.parts {p : Str} (h : Plain p) : p ≠ [] ∧ ∃ x, (splitOn '/' p).getLast? = some x ∧ comp x = .name x := by
  obtain ⟨n, ⟨h1, h2, h3, h4⟩, e⟩ := h
  have hc : comp n = .name n := by unfold comp; rw [if_neg h2, if_neg h3, if_neg h4]
  rcases e with rfl | ⟨d, rfl⟩
  · exact ⟨h2, p, by rw [Text.splitOn_no_sep h1]; rfl, hc⟩
  · exact ⟨by simp, n, by rw [splitOn_sep, Text.splitOn_no_sep h1]; simp, hc⟩

/-! ## create and destroy agree -/

theorem destroyLog_cases {T : Types} {cwd : Place} {u : Str} {w w' : World B M} {r : Res} (h : DestroyLog T cwd u w r w') :
    (T.createLog u = none ∧ r = .fail ∧ w' = w) ∨ (T.createLog u = some .memory ∧ r = .ok ∧ w' = w) ∨
      ∃ p, T.createLog u = some (.dir p) ∧ GcDirW cwd p w r w' := by
  cases h with
  | bad hb =>
    left; refine ⟨?_, rfl, rfl⟩
    unfold Types.createLog
    split
    · rfl
    · next a b e => rw [hb a b e]
  | memory hu hk => right; left; exact ⟨by simp only [Types.createLog, hu, hk], rfl, rfl⟩
  | segment hu hk hg => right; right; exact ⟨_, by simp only [Types.createLog, hu, hk], hg⟩

theorem destroySnap_cases {T : Types} {cwd : Place} {u : Str} {w w' : World B M} {r : Res} (h : DestroySnap T cwd u w r w') :
    (T.createSnap u = none ∧ r = .fail ∧ w' = w) ∨ ∃ p, T.createSnap u = some p ∧ GcDirW cwd p w r w' := by
  cases h with
  | bad hb =>
    left; refine ⟨?_, rfl, rfl⟩
    unfold Types.createSnap
    split
    · rfl
    · next a b e => rw [hb a b e]
  | dir hu hk hg => right; exact ⟨_, by simp only [Types.createSnap, hu, hk], hg⟩

theorem destroyMeta_cases {T : Types} {cwd : Place} {u k : Str} {w w' : World B M} {r : Res}
    (h : DestroyMeta T cwd u k w r w') :
    (T.createMeta u = none ∧ r = .fail ∧ w' = w) ∨
    (∃ p, T.createMeta u = some ⟨some p, none⟩ ∧ GcDirW cwd p w r w') ∨
    (∃ m, T.createMeta u = some ⟨none, some m⟩ ∧ RemKey cwd m k w r w') ∨
    (∃ m s, T.createMeta u = some ⟨some s, some m⟩ ∧
      ((r = .fail ∧ GcDirW cwd s w .fail w') ∨ ∃ w₁, GcDirW cwd s w .ok w₁ ∧ RemKey cwd m k w₁ r w')) := by
  cases h with
  | bad hb =>
    left; refine ⟨?_, rfl, rfl⟩
    unfold Types.createMeta
    split
    · rfl
    · next a b e => rw [hb a b e]
  | single hu hk hg => right; left; exact ⟨_, by simp only [Types.createMeta, hu, hk], hg⟩
  | merged hu hk hg => right; right; left; exact ⟨_, by simp only [Types.createMeta, hu, hk], hg⟩
  | mixedBad hu hk hm => left; exact ⟨by simp only [Types.createMeta, hu, hk, hm], rfl, rfl⟩
  | @mixedFail a b m s _ hu hk hm hg => right; right; right; exact ⟨m, s, by simp only [Types.createMeta, hu, hk, hm], .inl ⟨rfl, hg⟩⟩
  | mixed hu hk hm hg hr => right; right; right; exact ⟨_, _, by simp only [Types.createMeta, hu, hk, hm], .inr ⟨_, hg, hr⟩⟩

/-! ## Frame -/

theorem gcDirW_frame {T : Types} {cwd : Place} {o : GcOptions} {p : Str} {w w' : World B M} {r : Res}
    (hd : Dirs T o p) (h : GcDirW cwd p w r w') {q : Place} (hq : ¬ Touched T cwd o q) : w'.fs q = w.fs q :=
  gcDir_frame (gcDirW_db h).2.2.2 (fun e => hq ⟨p, hd, .inl e.2⟩) (fun e => hq ⟨p, hd, .inr e⟩)

/-- Which key of which database gc of the instance may touch. -/
def Key (T : Types) (cwd : Place) (o : GcOptions) (a : Place) (k : Str) : Prop :=
  k = o.vgid ∧ ∃ t m, T.createMeta o.metaUri = some t ∧ t.merged = some m ∧ a = place cwd m

theorem log_frame {T : Types} {cwd : Place} {o : GcOptions} {w w' : World B M} {r : Res}
    (h : DestroyLog T cwd o.log w r w') :
    (∀ q, ¬ Touched T cwd o q → w'.fs q = w.fs q) ∧ (∀ a k, ¬ Key T cwd o a k → w'.db a k = w.db a k) := by
  rcases destroyLog_cases h with ⟨_, _, rfl⟩ | ⟨_, _, rfl⟩ | ⟨p, e, hg⟩
  · exact ⟨fun _ _ => rfl, fun _ _ _ => rfl⟩
  · exact ⟨fun _ _ => rfl, fun _ _ _ => rfl⟩
  · exact ⟨fun q hq => gcDirW_frame (.inl e) hg hq, fun _ _ _ => by rw [(gcDirW_db hg).1]⟩

theorem snap_frame {T : Types} {cwd : Place} {o : GcOptions} {w w' : World B M} {r : Res}
    (h : DestroySnap T cwd o.snap w r w') :
    (∀ q, ¬ Touched T cwd o q → w'.fs q = w.fs q) ∧ (∀ a k, ¬ Key T cwd o a k → w'.db a k = w.db a k) := by
  rcases destroySnap_cases h with ⟨_, _, rfl⟩ | ⟨p, e, hg⟩
  · exact ⟨fun _ _ => rfl, fun _ _ _ => rfl⟩
  · exact ⟨fun q hq => gcDirW_frame (.inr (.inl e)) hg hq, fun _ _ _ => by rw [(gcDirW_db hg).1]⟩

theorem meta_frame {T : Types} {cwd : Place} {o : GcOptions} {w w' : World B M} {r : Res}
    (h : DestroyMeta T cwd o.metaUri o.vgid w r w') :
    (∀ q, ¬ Touched T cwd o q → w'.fs q = w.fs q) ∧ (∀ a k, ¬ Key T cwd o a k → w'.db a k = w.db a k) := by
  rcases destroyMeta_cases h with ⟨_, _, rfl⟩ | ⟨p, e, hg⟩ | ⟨m, e, hr⟩ | ⟨m, s, e, ⟨_, hg⟩ | ⟨w₁, hg, hr⟩⟩
  · exact ⟨fun _ _ => rfl, fun _ _ _ => rfl⟩
  · exact ⟨fun q hq => gcDirW_frame (.inr (.inr ⟨_, e, rfl⟩)) hg hq, fun _ _ _ => by rw [(gcDirW_db hg).1]⟩
  · exact ⟨fun q _ => by rw [(remKey_fs hr).1], fun a k hk => remKey_frame hr (fun x => hk ⟨x.2, _, m, e, rfl, x.1⟩)⟩
  · exact ⟨fun q hq => gcDirW_frame (.inr (.inr ⟨_, e, rfl⟩)) hg hq, fun _ _ _ => by rw [(gcDirW_db hg).1]⟩
  · refine ⟨fun q hq => ?_, fun a k hk => ?_⟩
    · rw [(remKey_fs hr).1]; exact gcDirW_frame (.inr (.inr ⟨_, e, rfl⟩)) hg hq
    · rw [remKey_frame hr (fun x => hk ⟨x.2, _, m, e, rfl, x.1⟩), (gcDirW_db hg).1]

/-- Whatever gc_raft_data returns, and wherever it is killed: files that are in none of the directories of the instance, nor in
the temporary path of one of them, stay as they are, and so does the term and vote of every other group in a merged storage. -/
theorem gc_touches_only_its_instance {T : Types} {cwd : Place} {o : GcOptions} {w w' : World B M} {r : Res}
    (h : GcRaft T cwd o w r w') :
    (∀ q, ¬ Touched T cwd o q → w'.fs q = w.fs q) ∧ (∀ a k, ¬ Key T cwd o a k → w'.db a k = w.db a k) := by
  cases h with
  | mk h1 h2 h3 =>
    have a := log_frame (o := o) h1; have b := meta_frame h2; have c := snap_frame (o := o) h3
    exact ⟨fun q hq => by rw [c.1 q hq, b.1 q hq, a.1 q hq], fun x k hk => by rw [c.2 x k hk, b.2 x k hk, a.2 x k hk]⟩
  | killed₁ h1 => exact log_frame (o := o) h1
  | killed₂ h1 h2 =>
    have a := log_frame (o := o) h1; have b := meta_frame h2
    exact ⟨fun q hq => by rw [b.1 q hq, a.1 q hq], fun x k hk => by rw [b.2 x k hk, a.2 x k hk]⟩
  | killed₃ h1 h2 h3 =>
    have a := log_frame (o := o) h1; have b := meta_frame h2; have c := snap_frame (o := o) h3
    exact ⟨fun q hq => by rw [c.1 q hq, b.1 q hq, a.1 q hq], fun x k hk => by rw [c.2 x k hk, b.2 x k hk, a.2 x k hk]⟩

/-! ## Success -/

/-- gc_raft_data returned 0: the three URIs are ones that create() opens, nothing is left in the directories they name, and the
term and vote of the group are gone from the merged storage, if this process has that storage loaded.
Missing from the full claim: see `gc_leaves_vote_witness` for a merged storage that is not loaded. -/
theorem gc_success_removes_partial {T : Types} {cwd : Place} {o : GcOptions} {w w' : World B M} (ht : w.fs.Tree)
    (h : GcRaft T cwd o w .ok w') :
    T.createLog o.log ≠ none ∧ T.createMeta o.metaUri ≠ none ∧ T.createSnap o.snap ≠ none ∧
    (∀ p q, Dirs T o p → p ≠ [] → place cwd p <+: q → w'.fs q = none) ∧
    (∀ a m, T.createMeta o.metaUri = some a → a.merged = some m → m ∈ w.open_ ∨ m ∈ w.uninit →
      w'.db (place cwd m) o.vgid = none) := by
  have key : ∀ {r₁ r₂ r₃ : Res}, r₁.and (r₂.and r₃) = .ok → r₁ = .ok ∧ r₂ = .ok ∧ r₃ = .ok := by
    intro a b c; cases a <;> cases b <;> cases c <;> simp [Res.and]
  generalize hr : Res.ok = r at h
  cases h with
  | killed₁ _ => cases hr
  | killed₂ _ _ => cases hr
  | killed₃ _ _ _ => cases hr
  | @mk r₁ w₁ r₂ w₂ r₃ _ h1 h2 h3 =>
    obtain ⟨rfl, rfl, rfl⟩ := key hr.symm
    -- the first call
    have f1 : T.createLog o.log ≠ none ∧ w₁.fs.Tree ∧ (∀ q, w₁.fs q = w.fs q ∨ w₁.fs q = none) ∧ w₁.open_ = w.open_ ∧
        w₁.uninit = w.uninit ∧ w₁.db = w.db ∧
        ∀ p q, T.createLog o.log = some (.dir p) → p ≠ [] → place cwd p <+: q → w₁.fs q = none := by
      rcases destroyLog_cases h1 with ⟨_, e, _⟩ | ⟨e, _, rfl⟩ | ⟨p, e, hg⟩
      · cases e
      · exact ⟨by rw [e]; simp, ht, fun _ => .inl rfl, rfl, rfl, rfl, fun p q e' => by rw [e] at e'; cases e'⟩
      · have g := gcDirW_db hg
        refine ⟨by rw [e]; simp, tree_gcDir ht g.2.2.2, gcDir_mono g.2.2.2, g.2.1, g.2.2.1, g.1, fun p' q e' hp hq => ?_⟩
        rw [e] at e'; cases e'; exact gcDir_gone ht hp g.2.2.2 hq
    have f2 : T.createMeta o.metaUri ≠ none ∧ w₂.fs.Tree ∧ (∀ q, w₂.fs q = w₁.fs q ∨ w₂.fs q = none) ∧
        (∀ a p q, T.createMeta o.metaUri = some a → a.single = some p → p ≠ [] → place cwd p <+: q → w₂.fs q = none) ∧
        (∀ a m, T.createMeta o.metaUri = some a → a.merged = some m → m ∈ w₁.open_ ∨ m ∈ w₁.uninit →
          w₂.db (place cwd m) o.vgid = none) := by
      rcases destroyMeta_cases h2 with ⟨_, e, _⟩ | ⟨p, e, hg⟩ | ⟨m, e, hr⟩ | ⟨m, s, e, ⟨e', _⟩ | ⟨v, hg, hr⟩⟩
      · cases e
      · have g := gcDirW_db hg
        refine ⟨by rw [e]; simp, tree_gcDir f1.2.1 g.2.2.2, gcDir_mono g.2.2.2, fun a p' q e' ea hp hq => ?_,
          fun a m e' ea _ => ?_⟩
        · rw [e] at e'; cases e'; cases ea; exact gcDir_gone f1.2.1 hp g.2.2.2 hq
        · rw [e] at e'; cases e'; cases ea
      · have g := remKey_fs hr
        refine ⟨by rw [e]; simp, by rw [g.1]; exact f1.2.1, fun q => .inl (by rw [g.1]), fun a p' q e' ea => ?_,
          fun a m' e' ea ho => ?_⟩
        · rw [e] at e'; cases e'; cases ea
        · rw [e] at e'; cases e'; cases ea; exact remKey_gone hr ho
      · cases e'
      · have g := gcDirW_db hg; have g' := remKey_fs hr
        refine ⟨by rw [e]; simp, by rw [g'.1]; exact tree_gcDir f1.2.1 g.2.2.2,
          fun q => by rw [g'.1]; exact gcDir_mono g.2.2.2 q, fun a p' q e' ea hp hq => ?_, fun a m' e' ea ho => ?_⟩
        · rw [e] at e'; cases e'; cases ea; rw [g'.1]; exact gcDir_gone f1.2.1 hp g.2.2.2 hq
        · rw [e] at e'; cases e'; cases ea
          rw [← g.2.1, ← g.2.2.1] at ho; exact remKey_gone hr ho
    rcases destroySnap_cases h3 with ⟨_, e, _⟩ | ⟨p, e, hg⟩
    · cases e
    · have g := gcDirW_db hg
      have mono := gcDir_mono g.2.2.2
      have stay : ∀ q, w₂.fs q = none → w'.fs q = none := fun q hq => by
        rcases mono q with x | x
        · rw [x, hq]
        · exact x
      refine ⟨f1.1, f2.1, by rw [e]; simp, fun p' q hd hp hq => ?_, fun a m ea em ho => ?_⟩
      · rcases hd with hd | hd | ⟨a, hd, ha⟩
        · apply stay
          rcases f2.2.2.1 q with x | x
          · rw [x]; exact f1.2.2.2.2.2.2 p' q hd hp hq
          · exact x
        · rw [e] at hd; cases hd; exact gcDir_gone f2.2.1 hp g.2.2.2 hq
        · exact stay q (f2.2.2.2.1 a p' q hd ha hp hq)
      · rw [g.1]; rw [← f1.2.2.2.1, ← f1.2.2.2.2.1] at ho; exact f2.2.2.2.2 a m ea em ho

/-! ## Failures and kills -/

/-- gc_dir of a path that ends with a name, whatever fails and whenever the process is killed: the directory is complete, or
nothing of it is left under its name. A half deleted storage is never opened again. -/
theorem gc_dir_all_or_nothing {cwd : Place} {p : Str} {f g : Fs B} {r : Res} (ht : f.Tree) (hp : Plain p)
    (h : GcDir cwd p f r g) :
    (∀ q, place cwd p <+: q → g q = f q) ∨ (∀ q, place cwd p <+: q → g q = none) := by
  obtain ⟨h0, x, hl, hx⟩ := hp.parts
  obtain ⟨h1, h2⟩ := plain_apart (cwd := cwd) h0 hl hx
  exact gcDir_atomic ht h0 h1 h2 h

/-- And it can always be finished: from any state there is a run that succeeds. -/
theorem gc_dir_can_succeed {cwd : Place} {p : Str} (f : Fs B) (hp : Plain p) : ∃ g, GcDir cwd p f .ok g := by
  obtain ⟨h0, x, hl, hx⟩ := hp.parts
  obtain ⟨h1, h2⟩ := plain_apart (cwd := cwd) h0 hl hx
  by_cases e : (f.del (place cwd (tmpOf p))) (place cwd p) = none
  · exact ⟨_, .absent (.inr e)⟩
  · exact ⟨_, .done h0 e h1⟩

/-- A path with a slash at its end opens a storage as any other path does, but gc of it always fails while the directory is
there: the temporary path "…/.tmp" is inside the directory, and rename of a directory into itself is refused. -/
theorem trailing_slash_never_collected {cwd : Place} {d : Str} {f g : Fs B} {r : Res}
    (h0 : f (place cwd (d ++ ['/'])) ≠ none) (h : GcDir cwd (d ++ ['/']) f r g) : r = .fail := by
  have hp : d ++ ['/'] ≠ [] := by simp
  have hl : (splitOn '/' (d ++ ['/'])).getLast? = some [] := by
    rw [show d ++ ['/'] = d ++ '/' :: [] from rfl, splitOn_sep]; simp [splitOn]
  obtain ⟨e, y, h1, h2, h3⟩ := place_parts cwd hp
  rw [hl] at h1; cases h1
  refine gcDir_stuck hp (not_plain_inside hp hl (by decide)) h0 ?_ h
  intro e'
  rw [h2, h3] at e'
  have := congrArg List.length e'
  simp [comp, resolve] at this

example : (builtin.createLog "local://./data/log/".toList = some (.dir "./data/log/".toList)) ∧
    place [] "./data/log/".toList = ["data".toList, "log".toList] ∧
    place [] (tmpOf "./data/log/".toList) = ["data".toList, "log".toList, ".tmp".toList] := by decide

/-! ## URIs -/

/-- The parameter of a URI is compared without its white space: two URIs with the same protocol whose parameters differ only in
white space name the same storage. -/
theorem spaces_do_not_distinguish (T : Types) {a b b' : Str} (ha : ∀ x y, a = x ++ y → y ≠ [] → ∀ b, ¬ sep <+: y ++ sep ++ b)
    (h : b.filter (fun c => !isSpace c) = b'.filter (fun c => !isSpace c)) :
    T.createLog (a ++ sep ++ b) = T.createLog (a ++ sep ++ b') ∧
    T.createSnap (a ++ sep ++ b) = T.createSnap (a ++ sep ++ b') ∧
    T.createMeta (a ++ sep ++ b) = T.createMeta (a ++ sep ++ b') := by
  have e : parseUri (a ++ sep ++ b) = parseUri (a ++ sep ++ b') := by
    unfold parseUri
    rw [cut_append (by decide) a b (fun x y e hy => ha x y e hy b), cut_append (by decide) a b' (fun x y e hy => ha x y e hy b')]
    simp only [h]
  simp only [Types.createLog, Types.createSnap, Types.createMeta, e, and_self]

/-- A URI that is written protocol://path, the protocol without colons and spaces and the path without spaces, names exactly
that path. -/
theorem uri_names_its_path {a b : Str} (h0 : a ≠ []) (ha : ∀ c ∈ a, c ≠ ':' ∧ isSpace c = false)
    (hb : ∀ c ∈ b, isSpace c = false) : parseUri (a ++ sep ++ b) = some (a, b) := by
  have hc : cut sep (a ++ sep ++ b) = some (a, b) := by
    apply cut_append (by decide)
    intro x y e hy hp
    cases y with
    | nil => exact hy rfl
    | cons c y =>
      obtain ⟨t, ht⟩ := hp
      have : ':' = c := by simpa [sep] using congrArg List.head? ht
      exact (ha c (by rw [e]; simp)).1 this.symm
  have hd : ∀ l : Str, (∀ c ∈ l, isSpace c = false) → l.dropWhile isSpace = l := by
    intro l hl
    cases l with
    | nil => rfl
    | cons c l => rw [List.dropWhile_cons, if_neg (by rw [hl c (by simp)]; simp)]
  have htr : trim a = a := by
    unfold trim
    rw [hd a (fun c hc => (ha c hc).2), hd a.reverse (fun c hc => (ha c (by simpa using hc)).2), List.reverse_reverse]
  unfold parseUri
  rw [hc]
  simp only [htr]
  rw [if_neg h0, List.filter_eq_self.2 (fun c hc => by rw [hb c hc]; rfl)]

/-- The text of a mixed URI is taken apart into the two paths it was made of, if neither contains "://" and the first does not
contain the separator. -/
theorem mixed_path_round_trip {m s : Str} (h1 : ¬ sep <:+: mergedKey ++ m ++ singleKey ++ s)
    (h2 : ∀ x y, m = x ++ y → y ≠ [] → ¬ singleKey <+: y ++ singleKey ++ s) :
    parseMixed (mergedKey ++ m ++ singleKey ++ s) = some (m, s) := by
  unfold parseMixed afterSep
  rw [cut_none (by decide) h1]
  have : cut mergedKey (mergedKey ++ m ++ singleKey ++ s) = some ([], m ++ singleKey ++ s) := by
    have := cut_append (pat := mergedKey) (by decide) [] (m ++ singleKey ++ s) (fun x y e hy => by
      cases x <;> cases y <;> simp at e hy)
    simpa using this
  simp only [this]
  exact cut_append (by decide) m s h2

/-- The key of a node in a merged storage determines the group and the index of the node. -/
theorem group_keys_distinct {g g' : Str} {i i' : Int} (h : vgid g i = vgid g' i') : g = g' ∧ i = i' := by
  have hn : ∀ i : Int, '_' ∉ printInt i := fun i => Text.not_mem_printInt (by decide) (by decide) i
  have hl : ∀ (g : Str) (i : Int), splitOn '_' (vgid g i) = splitOn '_' g ++ [printInt i] := fun g i => by
    unfold vgid; rw [splitOn_sep, Text.splitOn_no_sep (hn i)]
  have e := h; have e2 := congrArg (splitOn '_') h
  rw [hl, hl] at e2
  have hpi : printInt i = printInt i' := by simpa using congrArg List.getLast? e2
  have hii : i = i' := by
    have a := Text.scanInt_print i [] (by simp); have b := Text.scanInt_print i' [] (by simp)
    rw [List.append_nil] at a b; rw [hpi, b] at a
    simpa using a.symm
  subst hii
  refine ⟨?_, rfl⟩
  unfold vgid at e
  exact List.append_cancel_right e

/-! ## Findings -/

def g1 : GcOptions := ⟨"g_0".toList, "local://d/log".toList, "local-merged://d/m".toList, "local://d/snap".toList⟩

/-- gc_raft_data returns 0 although the term and vote of the group stay in the merged storage: the process has not loaded that
storage (for example because it was started to clean up), and remove_instance_from_meta_storage takes that for success. -/
theorem gc_leaves_vote_witness : ∃ (w w' : World Unit Nat), w.fs.Tree ∧ GcRaft builtin [] g1 w .ok w' ∧
    w'.db (place [] "d/m".toList) g1.vgid = some 7 :=
  ⟨⟨fun _ => none, [], [], fun _ _ => some 7⟩, _, fun a b h => absurd rfl h,
    .mk (r₁ := .ok) (r₂ := .ok) (r₃ := .ok)
      (.segment (a := "local".toList) (b := "d/log".toList) (by decide) (by decide) (.mk (.absent (.inr (by decide)))))
      (.merged (a := "local-merged".toList) (b := "d/m".toList) (by decide) (by decide) (.absent (by simp) (by simp)))
      (.dir (a := "local".toList) (b := "d/snap".toList) (by decide) (by decide) (.mk (.absent (.inr (by decide))))), rfl⟩

/-- Collecting "local://d/a b" deletes the storage of "local://d/ab". -/
theorem space_collision_witness : ∃ (f g : Fs Nat), f.Tree ∧ f (place [] "d/ab".toList) = some 1 ∧
    builtin.createLog "local://d/a b".toList = builtin.createLog "local://d/ab".toList ∧
    GcDir [] "d/ab".toList f .ok g ∧ g (place [] "d/ab".toList) = none := by
  refine ⟨fun q => if q = [] ∨ q = ["d".toList] ∨ q = ["d".toList, "ab".toList] then some 1 else none, _, ?_, by decide, by decide,
    .done (by decide) (by decide) (by decide), by decide⟩
  intro a b h
  show (if _ then some 1 else none) ≠ none
  split
  · simp
  · next e =>
    exfalso
    apply h
    show (if _ then some 1 else none) = none
    rw [if_neg]
    rintro (h | h | h)
    · simp at h; exact e (.inl h.1)
    · rcases a with _ | ⟨x, a⟩
      · exact e (.inl rfl)
      · simp at h; exact e (.inr (.inl (by simp [h.1, h.2.1])))
    · rcases a with _ | ⟨x, _ | ⟨y, a⟩⟩
      · exact e (.inl rfl)
      · simp at h; exact e (.inr (.inl (by simp [h.1])))
      · simp at h; exact e (.inr (.inr (by simp [h.1, h.2.1, h.2.2.1])))

/-- Collecting "d/a" deletes the storage "d/a.tmp" of another group: the temporary path is not reserved. -/
theorem tmp_collision (f g : Fs B) (h : GcDir [] "d/a".toList f .ok g) {q : Place}
    (hq : place [] "d/a.tmp".toList <+: q) : g q = none := by
  have e : place [] "d/a.tmp".toList = place [] (tmpOf "d/a".toList) := by decide
  rw [e] at hq
  cases h with
  | absent _ => exact del_in hq
  | done _ _ _ => exact del_in hq

/-- A mixed meta storage whose URI can not be taken apart is created without a single storage and its field is never written; the
destructor uses it. Otherwise it is always written. -/
theorem mixed_garbage_iff (par : Str) : mixedDelUses (mixedNew par).1 = true ↔ parseMixed par = none := by
  unfold mixedNew
  cases parseMixed par with
  | none => simp [mixedDelUses]
  | some x => simp [mixedDelUses]

example : builtin.metaKind "local-mixed".toList = some .mixed ∧
    parseUri "local-mixed://merged_path=/d/m&single_path=/d/s".toList =
      some ("local-mixed".toList, "merged_path=/d/m&single_path=/d/s".toList) ∧
    mixedDelUses (mixedNew "merged_path=/d/m&single_path=/d/s".toList).1 = true := by decide

/-! ## The hypotheses are met -/

/-- An instance with a mixed meta storage. -/
def g2 : GcOptions := ⟨"g_0".toList, "local://d/log".toList, "local-mixed://merged_path=d/m&&single_path=d/meta".toList,
  "local://d/snap".toList⟩

/-- Its files, a file of another group and the directory above. -/
def w2 : World Nat Nat :=
  ⟨fun q => if q = [] ∨ q = ["d".toList] ∨ q = ["d".toList, "log".toList] ∨ q = ["d".toList, "meta".toList] ∨
      q = ["d".toList, "snap".toList] ∨ q = ["d".toList, "other".toList] then some 1 else none,
    ["d/m".toList], [], fun a k => if a = ["d".toList, "m".toList] then some 5 else none⟩

example : builtin.createMeta g2.metaUri = some ⟨some "d/meta".toList, some "d/m".toList⟩ := by decide

example : ∃ w', GcRaft builtin [] g2 w2 .ok w' ∧ w'.fs ["d".toList, "log".toList] = none ∧
    w'.fs ["d".toList, "meta".toList] = none ∧ w'.fs ["d".toList, "snap".toList] = none ∧
    w'.fs ["d".toList, "other".toList] = some 1 ∧ w'.db ["d".toList, "m".toList] "g_0".toList = none ∧
    w'.db ["d".toList, "m".toList] "g_1".toList = some 5 :=
  ⟨_, .mk (r₁ := .ok) (r₂ := .ok) (r₃ := .ok)
      (.segment (a := "local".toList) (b := "d/log".toList) (by decide) (by decide)
        (.mk (.done (by decide) (by decide) (by decide))))
      (.mixed (a := "local-mixed".toList) (b := "merged_path=d/m&&single_path=d/meta".toList) (m := "d/m".toList)
        (s := "d/meta".toList) (by decide) (by decide) (by decide)
        (.mk (.done (by decide) (by decide) (by decide))) (.done .ok (by decide)))
      (.dir (a := "local".toList) (b := "d/snap".toList) (by decide) (by decide)
        (.mk (.done (by decide) (by decide) (by decide)))),
    by decide, by decide, by decide, by decide, by decide, by decide⟩

/-- Killed between the rename and the end of the second deletion: gone under its name, and the rest is in the temporary path. -/
example : ∃ g, GcDir [] "d/log".toList w2.fs .fail g ∧ g ["d".toList, "log".toList] = none ∧
    g ["d".toList, "log.tmp".toList] = some 1 :=
  ⟨_, .delFails (by decide) (by decide) (by decide) (fun q => .inl rfl), by decide, by decide⟩

example : Plain "d/log".toList := ⟨"log".toList, ⟨by decide, by decide, by decide, by decide⟩, .inr ⟨"d".toList, rfl⟩⟩

end Braft.Props.Uri
