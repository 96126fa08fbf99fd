import Verif.Store.Meta
/-
Power failures and the stored term and vote: ProtoBufFile::save (protobuf_file.cpp:38-83) with its
fsync, and the two stores of MixedMetaStorage.

As in Store/Power.lean: the bytes of a file up to its last successful fsync are durable and of the
bytes behind any prefix may survive; the operations on names (create, truncate, rename) are kept in a
journal of which a power failure loses a suffix, and a successful fsync of a file commits it (ext4, xfs;
more than POSIX promises). leveldb: a write with `sync` that returned OK is durable, a failed or killed
one may be lost or not, and DB::Open makes durable what it recovered.
-/
set_option linter.unusedVariables false
set_option linter.unusedSimpArgs false

namespace Braft.Meta
open Braft.Store

/-- A file: its bytes and how many of them are durable. -/
structure PFile where
  data : Bytes
  syn : Nat
deriving DecidableEq, Repr

/-- The two names with durability. -/
structure PSnap where
  main : Option PFile
  tmp : Option PFile
deriving DecidableEq, Repr

/-- The directory as the process sees it. -/
def PSnap.dir (s : PSnap) : Dir := ⟨s.main.map (·.data), s.tmp.map (·.data)⟩

/-- The present directory and the states since the last journal commit. -/
structure PDir where
  now : PSnap
  past : List PSnap
deriving DecidableEq, Repr

/-- A directory all of which is on the disk. -/
def Dir.durable (d : Dir) : PDir := ⟨⟨d.main.map (fun b => ⟨b, b.length⟩), d.tmp.map (fun b => ⟨b, b.length⟩)⟩, []⟩

/-- Effect of a successful call of ProtoBufFile::save (protobuf_file.cpp:43, 59, 65, 72, 79;
file_system_adaptor.cpp:55-57, 196-198: sync is raft_fsync of the temporary file, rename is rename(2),
no directory is synced). -/
def PDir.step (p : PDir) : Act → PDir
  | .openTmp => ⟨⟨p.now.main, some ⟨[], 0⟩⟩, p.now :: p.past⟩
  | .write bs => ⟨⟨p.now.main, some ⟨(p.now.tmp.getD ⟨[], 0⟩).data ++ bs, (p.now.tmp.getD ⟨[], 0⟩).syn⟩⟩, p.past⟩
  | .sync => ⟨⟨p.now.main, p.now.tmp.map (fun f => ⟨f.data, f.data.length⟩)⟩, []⟩
  | .rename => ⟨⟨p.now.tmp, none⟩, p.now :: p.past⟩

def PDir.run (p : PDir) (as : List Act) : PDir := as.foldl PDir.step p

/-- What a call that was killed or failed leaves besides "nothing": a write may be partial; an fsync
that failed has made nothing durable. -/
def PDir.Partial (p p' : PDir) : Act → Prop
  | .write bs => ∃ b, b <+: bs ∧ p' = p.step (.write b)
  | _ => False

/-- `p'` is what a process killed during the calls `as`, or in which one of them failed, may leave. -/
def PCrash (p' : PDir) : PDir → List Act → Prop
  | p, [] => p' = p
  | p, a :: as => p' = p ∨ p.Partial p' a ∨ PCrash p' (p.step a) as

/-- What may be left of a file. -/
def PFile.Lost (f : PFile) (b : Bytes) : Prop := ∃ n, f.syn ≤ n ∧ b = f.data.take n

/-- What may be left of a name. -/
def LostOpt : Option PFile → Option Bytes → Prop
  | none, b => b = none
  | some f, b => ∃ x, f.Lost x ∧ b = some x

/-- What may be left by a power failure. -/
def PDir.Fail (p : PDir) (d : Dir) : Prop :=
  ∃ s, (s = p.now ∨ s ∈ p.past) ∧ LostOpt s.main d.main ∧ LostOpt s.tmp d.tmp

/-- Set of pairs the file `meta` may be saved with, run to its end (raft_meta.cpp:450-466, 523-541): `save` of
ProtoBufFile with `raft_sync_meta()`. -/
def Pb.savesP (c : Pb) (p : PDir) (v : Pair) (sync : Bool) : PDir := p.run (saveActs (c.bytes v) sync)

/-- The calls before the rename: those of a save that returns -1. -/
def Pb.failActs (c : Pb) (v : Pair) : List Act :=
  [.openTmp, .write (be 4 ((c.bytes v).length % 4294967296)), .write (c.bytes v), .sync]

/-! ### Lemmas -/

/-- The present directory is that of Store/Meta.lean. -/
theorem step_dir (p : PDir) (a : Act) : (p.step a).now.dir = a.apply p.now.dir := by
  cases a with
  | openTmp => rfl
  | write bs =>
    simp only [PDir.step, PSnap.dir, Act.apply]
    cases p.now.tmp <;> rfl
  | sync => simp only [PDir.step, PSnap.dir, Act.apply]; cases p.now.tmp <;> rfl
  | rename => rfl

theorem run_dir (p : PDir) (as : List Act) : (p.run as).now.dir = as.foldl Act.apply p.now.dir := by
  induction as generalizing p with
  | nil => rfl
  | cons a as ih =>
    show (PDir.run (p.step a) as).now.dir = _
    rw [ih, step_dir]; rfl

theorem durable_dir (d : Dir) : d.durable.now.dir = d := by
  cases d with
  | mk m t => cases m <;> cases t <;> rfl

/-- The file holds `v` and all of it is durable. -/
def Pb.Safe (c : Pb) (s : PSnap) (v : Pair) : Prop :=
  c.Holds (s.main.map (·.data)) v ∧ ∀ f, s.main = some f → f.data.length ≤ f.syn

theorem lost_main (c : Pb) (s : PSnap) (v : Pair) (h : c.Safe s v) (d : Dir) (hl : LostOpt s.main d.main) :
    c.Holds d.main v := by
  obtain ⟨h1, h2⟩ := h
  cases hm : s.main with
  | none =>
    rw [hm] at hl h1
    have : d.main = none := hl
    rw [this]; exact h1
  | some f =>
    rw [hm] at hl h1
    obtain ⟨x, ⟨n, hn, hx⟩, hd⟩ := hl
    have := h2 f hm
    rw [List.take_of_length_le (by omega)] at hx
    rw [hd, hx]; exact h1

/-- All states to which a failure may return hold, durably, a pair in `may`, and the present one holds a pair in
`reads`. -/
structure Pb.Inv (c : Pb) (p : PDir) (reads may : Pair → Prop) : Prop where
  now : ∃ v, reads v ∧ may v ∧ c.Safe p.now v
  past : ∀ s ∈ p.past, ∃ v, may v ∧ c.Safe s v

theorem inv_weaken {c : Pb} {p : PDir} {r m r' m' : Pair → Prop} (h : c.Inv p r m) (hr : ∀ v, r v → r' v)
    (hm : ∀ v, m v → m' v) : c.Inv p r' m' := by
  obtain ⟨⟨v, h1, h2, h3⟩, h4⟩ := h
  exact ⟨⟨v, hr v h1, hm v h2, h3⟩, fun s hs => let ⟨w, a, b⟩ := h4 s hs; ⟨w, hm w a, b⟩⟩

/-- The calls before the rename keep the invariant. -/
theorem inv_step {c : Pb} {p : PDir} {r m : Pair → Prop} (h : c.Inv p r m) (a : Act) (ha : a ≠ .rename) :
    c.Inv (p.step a) r m := by
  obtain ⟨⟨v, h1, h2, h3⟩, h4⟩ := h
  have key : ∀ s : PSnap, s.main = p.now.main → c.Safe s v := by
    intro s hs
    unfold Pb.Safe
    rw [hs]; exact h3
  cases a with
  | openTmp =>
    refine ⟨⟨v, h1, h2, key _ rfl⟩, fun s hs => ?_⟩
    rcases List.mem_cons.mp hs with hs | hs
    · rw [hs]; exact ⟨v, h2, h3⟩
    · exact h4 s hs
  | write bs => exact ⟨⟨v, h1, h2, key _ rfl⟩, h4⟩
  | sync => exact ⟨⟨v, h1, h2, key _ rfl⟩, fun s hs => by cases hs⟩
  | rename => exact absurd rfl ha

theorem inv_crash {c : Pb} {r m : Pair → Prop} (as : List Act) (hr : ∀ a ∈ as, a ≠ .rename) {p p' : PDir}
    (h : c.Inv p r m) (hc : PCrash p' p as) : c.Inv p' r m := by
  induction as generalizing p with
  | nil => rw [show p' = p from hc]; exact h
  | cons a as ih =>
    rcases hc with hc | hc | hc
    · rw [hc]; exact h
    · cases a with
      | write bs =>
        obtain ⟨b, _, hb⟩ := hc
        rw [hb]; exact inv_step h _ (by simp)
      | openTmp => exact hc.elim
      | sync => exact hc.elim
      | rename => exact hc.elim
    · exact ih (fun x hx => hr x (List.mem_cons_of_mem _ hx)) (inv_step h a (hr a (List.mem_cons_self ..))) hc

theorem failActs_no_rename (c : Pb) (v : Pair) : ∀ a ∈ c.failActs v, a ≠ .rename := by
  intro a ha
  simp [Pb.failActs] at ha
  rcases ha with rfl | rfl | rfl | rfl <;> simp

theorem saveActs_eq (c : Pb) (v : Pair) : saveActs (c.bytes v) true = c.failActs v ++ [.rename] := rfl

theorem pcrash_append (p' p : PDir) (a b : List Act) (h : PCrash p' p (a ++ b)) :
    PCrash p' p a ∨ PCrash p' (p.run a) b := by
  induction a generalizing p with
  | nil => exact Or.inr h
  | cons x xs ih =>
    rcases h with h | h | h
    · exact Or.inl (Or.inl h)
    · exact Or.inl (Or.inr (Or.inl h))
    · rcases ih _ h with h | h
      · exact Or.inl (Or.inr (Or.inr h))
      · exact Or.inr h

/-- After the fsync the journal is empty and the temporary file is complete. -/
theorem run_fail (c : Pb) (p : PDir) (v : Pair) :
    p.run (c.failActs v) = ⟨⟨p.now.main, some ⟨be 4 ((c.bytes v).length % 4294967296) ++ c.bytes v,
      (be 4 ((c.bytes v).length % 4294967296) ++ c.bytes v).length⟩⟩, []⟩ := by
  simp [PDir.run, Pb.failActs, PDir.step]

theorem run_save (c : Pb) (p : PDir) (v : Pair) :
    c.savesP p v true = ⟨⟨some ⟨be 4 ((c.bytes v).length % 4294967296) ++ c.bytes v,
      (be 4 ((c.bytes v).length % 4294967296) ++ c.bytes v).length⟩, none⟩,
      [⟨p.now.main, some ⟨be 4 ((c.bytes v).length % 4294967296) ++ c.bytes v,
      (be 4 ((c.bytes v).length % 4294967296) ++ c.bytes v).length⟩⟩]⟩ := by
  unfold Pb.savesP
  rw [saveActs_eq]
  unfold PDir.run
  rw [List.foldl_append]
  have := run_fail c p v
  unfold PDir.run at this
  rw [this]
  rfl

theorem inv_save {c : Pb} {p : PDir} {r m : Pair → Prop} (h : c.Inv p r m) (v : Pair) (hf : c.Fits v) :
    c.Inv (c.savesP p v true) (fun x => x = v) (fun x => r x ∨ x = v) := by
  rw [run_save]
  obtain ⟨⟨w, h1, h2, h3⟩, h4⟩ := h
  refine ⟨⟨v, rfl, Or.inr rfl, Or.inr ⟨rfl, hf⟩, ?_⟩, ?_⟩
  · intro f hfm
    simp only [Option.some.injEq] at hfm
    rw [← hfm]; exact Nat.le_refl _
  · intro s hs
    rw [List.mem_singleton.mp hs]
    exact ⟨w, Or.inl h1, h3⟩

end Braft.Meta
