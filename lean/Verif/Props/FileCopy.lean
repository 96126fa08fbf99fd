import Verif.Snap.CopierInv
/-
C36: the copy of a file from a remote snapshot is exact, and C55: what an install publishes is the remote snapshot.

`FileCopy.Run c name P s` ranges over all runs of one session: chunk sizes, what the throttles of both sides grant, short
reads, failures with and without retry, answers that come late, twice or never, and cancellation. `c.file` is the file on
the serving node.

`Copier.Run ck sub A s` ranges over all runs of the copier on one node, install after install, with crashes. `A` names the
crashes that are allowed beside those outside filter_before_copy and outside the removal of a directory.
-/
set_option linter.unusedSectionVars false
set_option linter.unusedVariables false

namespace Braft.Props
open Braft.FileCopy
open Braft.Store (Bytes)

section session
variable {N : Type} [DecidableEq N] {c : Cfg} {name : N} {P : Bool} {s : FileCopy.State}

/-- C36. A session that ended without error has left exactly the file. The flags: raft_file_check_hole is off on the serving
node (as by default), raft_allow_read_partly_when_install_snapshot of the copying node does not change meanwhile. -/
theorem copy_exact_partial (h : Run c name P s) (hs : c.file.length < 2 ^ 64) (hh : c.holes = false)
    (hf : c.flagChanges = false) (hp : s.pc = .finished) (ho : s.ok = true) : s.dest = c.file := by
  obtain ⟨h1, h2, h3⟩ := (Run.inv hs hf h).done hp ho
  have hl := h3 hh
  have := h2.2
  rw [← hl, pad_self] at this
  rw [this, hl, List.take_length]

/-- C36. With raft_file_check_hole what is left is the file but for zeros at its end. -/
theorem copy_holes_partial (h : Run c name P s) (hs : c.file.length < 2 ^ 64)
    (hf : c.flagChanges = false) (hp : s.pc = .finished) (ho : s.ok = true) :
    s.dest ++ List.replicate (c.file.length - s.dest.length) 0 = c.file ∧ s.dest.length ≤ c.file.length := by
  obtain ⟨h1, h2, h3⟩ := (Run.inv hs hf h).done hp ho
  refine ⟨?_, h2.1⟩
  have := h2.2
  rw [List.take_length] at this
  exact this

/-- C36. At any time, what was copied is a prefix of the file: the next request starts where it ends. -/
theorem copy_prefix (h : Run c name P s) (hs : c.file.length < 2 ^ 64) (hh : c.holes = false) (hf : c.flagChanges = false)
    (hp : s.pc ≠ .finished) : s.dest <+: c.file := by
  have hi := Run.inv hs hf h
  have key : ∀ x, Got c s x → s.dest <+: c.file := by
    intro x ⟨h1, h2, h3⟩
    have := h2.2
    rw [← h3 hh, pad_self] at this
    rw [this]
    exact List.take_prefix _ _
  cases hq : s.pc with
  | sending => exact key _ (hi.idle (Or.inl hq))
  | waiting => exact key _ (hi.wait hq).1
  | timer => exact key _ (hi.idle (Or.inr hq))
  | finished => exact absurd hq hp

/-- C36. The decoder reads what the encoder wrote. -/
theorem segments_roundtrip (l : List (Nat × Bytes)) (h : ∀ x ∈ l, x.2 ≠ [] ∧ x.2.length < 2 ^ 32 ∧ x.1 < 2 ^ 64) :
    decode (encode l) = l := decode_encode l h

/-- C36. Once finished a session does not change its destination or its result, whatever still comes. -/
theorem copy_finished {t : FileCopy.State} (hp : s.pc = .finished) (hs : Step c name P s t) :
    t.pc = .finished ∧ t.ok = s.ok ∧ t.dest = s.dest := by
  cases hs with
  | send chunk grant h0 h => unfold State.send; rw [if_neg (by simp [hp])]; exact ⟨hp, rfl, rfl⟩
  | serve => exact ⟨hp, rfl, rfl⟩
  | failed a b m => unfold State.failed; rw [if_neg (by simp [hp])]; exact ⟨hp, rfl, rfl⟩
  | returned att n e w cl got hr => unfold State.returned; rw [if_neg (by simp [hp])]; exact ⟨hp, rfl, rfl⟩
  | cancel => unfold State.cancel; rw [if_pos hp]; exact ⟨hp, rfl, rfl⟩

/-- C36. A session that is cancelled before it finished reports an error. -/
theorem copy_cancelled (hp : s.pc ≠ .finished) : s.cancel.pc = .finished ∧ s.cancel.ok = false := by
  unfold State.cancel
  rw [if_neg hp]
  exact ⟨rfl, rfl⟩

/-- C36. A session that reaches its end reports no error only if all writes of this last piece and sync and close of the file
succeeded. -/
theorem copy_ok_is_closed (att : Bytes) (n : Nat) (eof w cl : Bool) (got : Bytes) (hp : s.pc = .waiting)
    (hf : (s.returned c.toBuf att n eof P w cl got).pc = .finished) :
    (s.returned c.toBuf att n eof P w cl got).ok = true ↔ w = true ∧ eof = true ∧ cl = true := by
  revert hf
  unfold State.returned
  rw [if_pos hp]
  cases w <;> cases eof <;> cases cl <;> simp [State.finish]

end session

section examples

/-- A reader that has just been made. -/
def rdr0 : Reader Unit := ⟨none, true, false⟩
def sysOk : Sys := ⟨true, true, true⟩

/-- The file in parts: a throttled answer, a failed call, an answer to it that comes late, the rest. -/
def cpCfg : Cfg := ⟨[1, 2, 3, 4, 5], false, false, false⟩
def cp1 : FileCopy.State := State.start.send 3 true none
def cp2 : FileCopy.State := { cp1 with resps := (1, serve rdr0 () cpCfg.file false ⟨1, 0, 3, true⟩ (some 2) sysOk []) :: cp1.resps }
def cp3 : FileCopy.State := cp2.returned false (encode [(0, [1, 2])]) 2 false true true true []
def cp4 : FileCopy.State := cp3.send 3 true (some 0)
def cp5 : FileCopy.State := cp4.send 2 true none
def cp6 : FileCopy.State := cp5.failed false false 3
def cp7 : FileCopy.State := cp6.send 4 true none
def cp8 : FileCopy.State := { cp7 with resps := (2, serve rdr0 () cpCfg.file false ⟨2, 2, 2, true⟩ none sysOk []) :: cp7.resps }
def cp9 : FileCopy.State := { cp8 with resps := (3, serve ⟨some (), false, false⟩ () cpCfg.file false ⟨3, 2, 4, true⟩ none sysOk []) :: cp8.resps }
def cp10 : FileCopy.State := cp9.returned false (encode [(2, [3, 4, 5])]) 3 true true true true []

example : Run cpCfg () true cp10 ∧ cp10.pc = .finished ∧ cp10.ok = true ∧ cp10.dest = [1, 2, 3, 4, 5] := by
  refine ⟨?_, by decide +kernel, by decide +kernel, by decide +kernel⟩
  have h1 : Run cpCfg () true cp1 := .step (.start true) (.send _ 3 none (by omega) (by omega))
  have h2 : Run cpCfg () true cp2 := .step h1 (.serve cp1 ⟨1, 0, 3, true⟩ rdr0 (some 2) sysOk [[1, 2]] (by decide +kernel) (by decide +kernel))
  have h3 : Run cpCfg () true cp3 := .step h2 (.returned cp2 _ 2 false true true [] (by decide +kernel))
  have h4 : Run cpCfg () true cp4 := .step h3 (.send _ 3 (some 0) (by omega) (by omega))
  have h5 : Run cpCfg () true cp5 := .step h4 (.send _ 2 none (by omega) (by omega))
  have h6 : Run cpCfg () true cp6 := .step h5 (.failed _ false false 3)
  have h7 : Run cpCfg () true cp7 := .step h6 (.send _ 4 none (by omega) (by omega))
  have h8 : Run cpCfg () true cp8 := .step h7 (.serve cp7 ⟨2, 2, 2, true⟩ rdr0 none sysOk [[3, 4]] (by decide +kernel) (by decide +kernel))
  have h9 : Run cpCfg () true cp9 := .step h8 (.serve cp8 ⟨3, 2, 4, true⟩ ⟨some (), false, false⟩ none sysOk [[3, 4, 5]] (by decide +kernel) (by decide +kernel))
  exact .step h9 (.returned cp9 _ 3 true true true [] (by decide +kernel))

example : cp9.pc ≠ .finished ∧ cp9.dest = [1, 2] := by decide +kernel

/-- Violation: with raft_file_check_hole zero blocks at the end of a file are lost, and the copy reports no error. -/
def hCfg : Cfg := ⟨[1, 0], false, true, false⟩
def ho1 : FileCopy.State := State.start.send 8 true none
def ho2 : FileCopy.State := { ho1 with resps := (1, serve rdr0 () hCfg.file true ⟨1, 0, 8, true⟩ none sysOk [[1], [0]]) :: ho1.resps }
def ho3 : FileCopy.State := ho2.returned false (encode [(0, [1])]) 2 true true true true []

theorem copy_holes_lost : Run hCfg () true ho3 ∧ ho3.pc = .finished ∧ ho3.ok = true ∧ ho3.dest ≠ hCfg.file := by
  refine ⟨?_, by decide +kernel, by decide +kernel, by decide +kernel⟩
  have h1 : Run hCfg () true ho1 := .step (.start true) (.send _ 8 none (by omega) (by omega))
  have h2 : Run hCfg () true ho2 := .step h1 (.serve ho1 ⟨1, 0, 8, true⟩ rdr0 none sysOk [[1], [0]] (by decide +kernel) (by decide +kernel))
  exact .step h2 (.returned ho2 _ 2 true true true [] (by decide +kernel))

/-- Violation: raft_allow_read_partly_when_install_snapshot is switched off while a request that allowed a short answer is
out. The part that was not read is skipped, and the copy reports no error. -/
def fCfg : Cfg := ⟨[1, 2, 3, 4, 5, 6], false, false, true⟩
def fl1 : FileCopy.State := State.start.send 4 true none
def fl2 : FileCopy.State := { fl1 with resps := (1, serve rdr0 () fCfg.file false ⟨1, 0, 4, true⟩ (some 2) sysOk []) :: fl1.resps }
def fl3 : FileCopy.State := fl2.returned false (encode [(0, [1, 2])]) 2 false false true true []
def fl4 : FileCopy.State := fl3.send 4 false none
def fl6 : FileCopy.State := { fl4 with resps := (2, serve ⟨some (), false, false⟩ () fCfg.file false ⟨2, 4, 4, false⟩ none sysOk []) :: fl4.resps }
def fl7 : FileCopy.State := fl6.returned false (encode [(4, [5, 6])]) 2 true false true true []

theorem copy_flag_hole : Run fCfg () false fl7 ∧ fl7.pc = .finished ∧ fl7.ok = true ∧ fl7.dest = [1, 2, 0, 0, 5, 6] := by
  refine ⟨?_, by decide +kernel, by decide +kernel, by decide +kernel⟩
  have h1 : Run fCfg () true fl1 := .step (.start true) (.send _ 4 none (by omega) (by omega))
  have h2 : Run fCfg () true fl2 := .step h1 (.serve fl1 ⟨1, 0, 4, true⟩ rdr0 (some 2) sysOk [[1, 2]] (by decide +kernel) (by decide +kernel))
  have h2' : Run fCfg () false fl2 := .flag h2 false rfl
  have h3 : Run fCfg () false fl3 := .step h2' (.returned fl2 _ 2 false true true [] (by decide +kernel))
  have h4 : Run fCfg () false fl4 := .step h3 (.send _ 4 none (by omega) (by omega))
  have h6 : Run fCfg () false fl6 := .step h4 (.serve fl4 ⟨2, 4, 4, false⟩ ⟨some (), false, false⟩ none sysOk [[5, 6]] (by decide +kernel) (by decide +kernel))
  exact .step h6 (.returned fl6 _ 2 true true true [] (by decide +kernel))

/-- Once the size of a file could not be had, the reader refuses every read, so no copy of that snapshot ends well. -/
theorem reader_stuck {N : Type} [DecidableEq N] (r : Reader N) (name : N) (file : Bytes) (off max : Nat) (y : Sys)
    (h : r.reading = true) : r.read name file off max y = (r, none) := by
  unfold Reader.read
  rw [if_pos h]

/-- That state is reached. -/
theorem reader_stuck_reached : (rdr0.read () [1, 2, 3] 0 2 ⟨true, true, false⟩).1.reading = true := by decide

/-- The reader refuses a file out of order: another file than the one that is open, before that one was read to its end or
not from the start. -/
theorem reader_order {N : Type} [DecidableEq N] (r : Reader N) (name : N) (file : Bytes) (off max : Nat) (y : Sys)
    (h : r.cur ≠ some name) (h2 : r.eof = false ∨ off ≠ 0) : r.read name file off max y = (r, none) := by
  unfold Reader.read
  split
  · rfl
  · rw [if_pos]
    refine ⟨h, ?_⟩
    rcases h2 with h2 | h2
    · left; simp [h2]
    · right; exact h2

end examples

section install
open Braft.Copier
variable {N K : Type} [DecidableEq N] [DecidableEq K] {ck : Bytes → K} {sub : N → Bool} {A : Allow} {s t : Copier.State N K}

/-- C55. When the copier is about to publish, its table is that of the remote snapshot and each file in it has the content
it has there. Either the writer started empty (filter_before_copy_remote off, as by default), whatever crashes there were
before; or no crash happened within filter_before_copy or within the removal of a directory. Files with equal checksums are
taken to be equal. -/
theorem install_exact_partial (hck : ∀ a b, ck a = ck b → a = b) (h : Copier.Run ck sub A s) (hp : s.pc = .ready)
    (hc : s.fil = false ∨ A.crashFilter = false ∧ A.crashWipe = false) :
    s.mem = s.src.tab ∧ ∀ n, s.src.tab n ≠ none → ∃ i, s.temp n = some i ∧ s.ino i = s.src.data n := by
  have hi := h.inv (C := A.crashFilter = false ∧ A.crashWipe = false) hck id
  have hst := hi.stage
  unfold Stage at hst
  rw [hp] at hst
  obtain ⟨h1, h2, h3⟩ := hst
  obtain ⟨hf, hall⟩ := h2 hc.symm
  have hm : ∀ n, s.src.tab n ≠ none → s.mem n ≠ none := fun n hn => hall n ((h1.names n).mpr hn)
  refine ⟨?_, fun n hn => (hf n (hm n hn)).2⟩
  funext n
  by_cases e : s.mem n = none
  · rw [e]
    refine Eq.symm (Classical.byContradiction fun hx => ?_)
    exact hm n hx e
  · exact (hf n e).1

/-- C55. What is published then is that. -/
theorem install_published (hp : s.pc = .ready) :
    s.publish.last = s.temp ∧ s.publish.lastTab = s.mem ∧ s.publish.ino = s.ino ∧ ∀ n, s.publish.temp n = none := by
  unfold Copier.State.publish
  rw [if_pos hp]
  exact ⟨rfl, rfl, rfl, fun _ => rfl⟩

/-- C33, C55. No step of an install changes the content of a file of the last snapshot, if no crash happens within
filter_before_copy or within the removal of a directory. -/
theorem install_keeps_last_partial (hck : ∀ a b, ck a = ck b → a = b) (h : Copier.Run ck sub A s)
    (hA : A.crashFilter = false ∧ A.crashWipe = false) (hs : Copier.Step ck sub A s t) {n : N} {i : Nat}
    (hl : s.last n = some i) : t.ino i = s.ino i :=
  (h.inv (C := A.crashFilter = false ∧ A.crashWipe = false) hck id).last_kept hA hs hl

/-- A small file can be copied. -/
theorem copies_small (b : Bytes) (h : b.length < 2 ^ 31) : Copies b b := by
  let c : Cfg := ⟨b, false, false, false⟩
  let q : Req := ⟨1, 0, 2 ^ 31, true⟩
  let s1 : FileCopy.State := State.start.send (2 ^ 31) true none
  have e : Store.pread b 0 (2 ^ 31) = b := by
    show (b.drop 0).take (2 ^ 31) = b
    rw [List.drop_zero, List.take_of_length_le (by omega)]
  have hs : serve rdr0 () b false q none sysOk [] = .ok (attach false 0 b []) b.length true := by
    unfold serve
    rw [if_neg (by decide)]
    dsimp only
    rw [if_neg (by simp [capped])]
    have : (rdr0.read () b q.off (capped none q.count) sysOk).2 = some (b, b.length, true) := by
      show (rdr0.read () b 0 (2 ^ 31) sysOk).2 = some (b, b.length, true)
      unfold Reader.read
      rw [if_neg (by decide), if_neg (by decide), if_neg (by decide)]
      dsimp only
      rw [e, if_neg (by decide : ¬(!sysOk.readOk) = true), if_pos h]
    rw [this]
  let s2 : FileCopy.State := { s1 with resps := (1, serve rdr0 () b false q none sysOk []) :: s1.resps }
  have h1 : FileCopy.Run c () true s1 := .step (.start true) (.send _ (2 ^ 31) none (by omega) (by omega))
  have h2 : FileCopy.Run c () true s2 := by
    refine .step h1 (.serve s1 q rdr0 none sysOk [b] ?_ ?_)
    · exact List.mem_cons_self ..
    · show [b].flatten = Store.pread b 0 (2 ^ 31)
      rw [e]; simp
  have h3 := FileCopy.Run.step h2 (.returned s2 (attach false 0 b []) b.length true true true [] (by
    show (1, Resp.ok (attach false 0 b []) b.length true) ∈ (1, serve rdr0 () b false q none sysOk []) :: s1.resps
    rw [hs]; exact List.mem_cons_self ..))
  refine ⟨c, true, _, h3, rfl, rfl, rfl, by show b.length < 2 ^ 64; omega, rfl, rfl, ?_⟩
  exact copy_exact_partial h3 (by show b.length < 2 ^ 64; omega) rfl rfl rfl rfl

/-! Concrete runs: names are numbers, those from 10 are in a subdirectory; the checksum of a file is its content. -/

def cSub (n : Nat) : Bool := decide (10 ≤ n)
/-- A directory with one file. -/
def one {α : Type} (n : Nat) (a : α) : Nat → Option α := fun m => if m = n then some a else none
/-- A remote snapshot with one file. -/
def src1 (n : Nat) (b : Bytes) : Src Nat Bytes := ⟨one n (some b), [n], fun _ => b⟩

theorem src1_ok (n : Nat) (b : Bytes) : (src1 n b).Ok id := by
  refine ⟨fun m => ?_, by simp [src1], fun m k h => ?_⟩
  · simp only [src1, one, List.mem_singleton]
    by_cases e : m = n <;> simp [e]
  · simp only [src1, one] at h ⊢
    by_cases e : m = n
    · rw [if_pos e] at h
      injection h with h
      injection h with h
    · rw [if_neg e] at h; cases h

/-- This node took a snapshot with file `n`. -/
def iv1 (n : Nat) : Copier.State Nat Bytes :=
  { State.empty with ino := one' [2], next := 1, last := one n 0, lastTab := one n (some [2]) }
where one' (b : Bytes) : Nat → Bytes := fun _ => b

theorem iv1_run (n : Nat) (A : Allow) : Copier.Run id cSub A (iv1 n) := by
  refine .step .start (.saved State.empty (iv1.one' [2]) 1 (one n 0) (one n (some [2])) rfl ⟨?_, ?_, ?_, ?_, ?_⟩)
  · intro i h; exact absurd h (Nat.not_lt_zero i)
  · intro m i h
    simp only [one] at h
    split at h
    · injection h with h; subst h; exact ⟨Nat.le_refl _, by omega⟩
    · cases h
  · exact Nat.zero_le _
  · intro m m' i h h'
    simp only [one] at h h'
    split at h
    · split at h'
      · omega
      · cases h'
    · cases h
  · intro m k h
    simp only [one] at h ⊢
    split at h
    · next e => injection h with h; injection h with h; exact ⟨0, by rw [if_pos e], h⟩
    · cases h

/-- Then one with other content of `n` was about to be published when the process was killed. -/
def iv2 (n : Nat) : Copier.State Nat Bytes :=
  { iv1 n with ino := fun i => if i = 1 then [1] else [2], next := 2, temp := one n 1, disk := one n (some [1]) }

theorem iv2_run (n : Nat) (A : Allow) : Copier.Run id cSub A (iv2 n) := by
  refine .step (iv1_run n A) (.left (iv1 n) (fun i => if i = 1 then [1] else [2]) 2 (one n 1) (one n (some [1])) rfl ⟨?_, ?_, ?_, ?_, ?_⟩)
  · intro i h
    have : i < 1 := h
    rw [if_neg (by omega)]; rfl
  · intro m i h
    simp only [one] at h
    split at h
    · injection h with h; subst h; exact ⟨Nat.le_refl _, by omega⟩
    · cases h
  · exact Nat.le_succ _
  · intro m m' i h h'
    simp only [one] at h h'
    split at h
    · split at h'
      · omega
      · cases h'
    · cases h
  · intro m k h
    simp only [one] at h ⊢
    split at h
    · next e => injection h with h; injection h with h; exact ⟨1, by rw [if_pos e], h⟩
    · cases h

theorem one_none {α : Type} (n m : Nat) (a : α) (h : m ≠ n) : one n a m = none := if_neg h

/-- An install whose remote snapshot has the file of the last snapshot: it is linked, not copied. -/
def iv3 : Copier.State Nat Bytes := ((iv2 0).begin (src1 0 [2]) true).cleaned []
def iv4 : Copier.State Nat Bytes := iv3.filter.link true
def iv5 : Copier.State Nat Bytes := ((((iv4.filtered true).delete).prepared true).next_file).next_file

theorem iv3_run (A : Allow) : Copier.Run id cSub A iv3 := by
  refine .step (.step (iv2_run 0 A) (.begin _ _ _ (src1_ok _ _))) (.cleaned _ [] ?_ ?_ (List.nodup_nil))
  · intro n _ h
    have h : one 0 (some ([1] : Bytes)) n = none := h
    show one 0 1 n = none
    by_cases e : n = 0
    · subst e; cases h
    · exact one_none _ _ _ e
  · intro n
    refine ⟨fun h => (by cases h), fun h => ?_⟩
    have h1 : one 0 (some ([1] : Bytes)) n ≠ none := h.1
    have h2 : one 0 (some ([2] : Bytes)) n = none := h.2
    by_cases e : n = 0
    · subst e; cases h2
    · exact absurd (one_none _ _ _ e) h1

theorem iv4_run (A : Allow) : Copier.Run id cSub A iv4 := .step (.step (iv3_run A) (.filter _)) (.link _ _)

example : Copier.Run id cSub ⟨false, false⟩ iv5 ∧ iv5.pc = .ready ∧ iv5.fil = true ∧ iv5.src.tab 0 = some (some [2]) ∧ iv5.last 0 = some 0 :=
  ⟨.step (.step (.step (.step (.step (iv4_run _) (.filtered _ true)) (.delete _)) (.prepared _ true)) (.next_file _)) (.next_file _),
    rfl, rfl, rfl, rfl⟩

/-- Violation: a crash after the link of filter_before_copy and before its sync leaves the old table with the new file. The
next install that wants the old checksum keeps the file: a snapshot with the wrong content is published. -/
def iw1 : Copier.State Nat Bytes := (iv4.crash.begin (src1 0 [1]) true).cleaned []
def iw2 : Copier.State Nat Bytes := ((((iw1.filter.filtered true).delete).prepared true).next_file).next_file

theorem install_crash_wrong : Copier.Run id cSub ⟨true, false⟩ iw2 ∧ iw2.pc = .ready ∧ iw2.src.data 0 = [1] ∧
    iw2.mem 0 = some (some [1]) ∧ iw2.temp 0 = some 0 ∧ iw2.ino 0 = [2] := by
  have h1 : Copier.Run id cSub ⟨true, false⟩ iw1 := by
    refine .step (.step (.step (iv4_run _) (.crash _ rfl)) (.begin _ _ _ (src1_ok 0 [1]))) (.cleaned _ [] ?_ ?_ (List.nodup_nil))
    · intro n _ h
      have h : one 0 (some ([1] : Bytes)) n = none := h
      show upd (upd (one 0 1) 0 none) 0 (one 0 0 0) n = none
      by_cases e : n = 0
      · subst e; cases h
      · rw [upd_other _ _ _ _ e, upd_other _ _ _ _ e]; exact one_none _ _ _ e
    · intro n
      refine ⟨fun h => (by cases h), fun h => ?_⟩
      have h1 : one 0 (some ([1] : Bytes)) n ≠ none := h.1
      have h2 : one 0 (some ([1] : Bytes)) n = none := h.2
      exact absurd h2 h1
  exact ⟨.step (.step (.step (.step (.step (.step h1 (.filter _)) (.filtered _ true)) (.delete _)) (.prepared _ true)) (.next_file _)) (.next_file _),
    rfl, rfl, rfl, rfl, rfl⟩

/-- Violation: a crash while `temp` is removed, after a file and before the table. The next install keeps the file by the
table: a snapshot without the file is published. -/
def ix1 : Copier.State Nat Bytes := ((((iv2 0).destroy.wipeFile 0).crash).begin (src1 0 [1]) true).cleaned []
def ix2 : Copier.State Nat Bytes := ((((ix1.filter.filtered true).delete).prepared true).next_file).next_file

theorem install_crash_missing : Copier.Run id cSub ⟨false, true⟩ ix2 ∧ ix2.pc = .ready ∧ ix2.src.tab 0 = some (some [1]) ∧
    ix2.mem 0 = some (some [1]) ∧ ix2.temp 0 = none := by
  have h1 : Copier.Run id cSub ⟨false, true⟩ ix1 := by
    refine .step (.step (.step (.step (.step (iv2_run 0 _) (.destroy _)) (.wipeFile _ 0)) (.crash _ rfl)) (.begin _ _ _ (src1_ok 0 [1])))
      (.cleaned _ [] ?_ ?_ (List.nodup_nil))
    · intro n _ h
      show upd (one 0 1) 0 none n = none
      by_cases e : n = 0
      · subst e; rfl
      · rw [upd_other _ _ _ _ e]; exact one_none _ _ _ e
    · intro n
      refine ⟨fun h => (by cases h), fun h => ?_⟩
      have h1 : one 0 (some ([1] : Bytes)) n ≠ none := h.1
      have h2 : one 0 (some ([1] : Bytes)) n = none := h.2
      exact absurd h2 h1
  exact ⟨.step (.step (.step (.step (.step (.step h1 (.filter _)) (.filtered _ true)) (.delete _)) (.prepared _ true)) (.next_file _)) (.next_file _),
    rfl, rfl, rfl, rfl⟩

/-- Violation: a crash after the link of a file in a subdirectory and before the sync. The link is not removed when the
writer is opened again, and the next install that has another content for the file truncates it: it is the file of the
last snapshot. -/
def iy1 : Copier.State Nat Bytes := ((((iv1 10).begin (src1 10 [2]) true).cleaned []).filter.link true).crash
def iy2 : Copier.State Nat Bytes := (iy1.begin (src1 10 [3]) true).cleaned []
def iy3 : Copier.State Nat Bytes := ((iy2.filter.filtered true).delete).prepared true

theorem install_crash_overwrites : Copier.Run id cSub ⟨true, false⟩ iy3 ∧ iy3.last 10 = some 0 ∧ iy3.ino 0 = [2] ∧
    Copier.Step id cSub ⟨true, false⟩ iy3 iy3.next_file ∧ iy3.next_file.last 10 = some 0 ∧ iy3.next_file.ino 0 = [] := by
  have h1 : Copier.Run id cSub ⟨true, false⟩ iy1 := by
    refine .step (.step (.step (.step (.step (iv1_run 10 _) (.begin _ _ _ (src1_ok 10 [2]))) (.cleaned _ [] ?_ ?_ (List.nodup_nil)))
      (.filter _)) (.link _ true)) (.crash _ rfl)
    · intro n _ _; rfl
    · intro n
      exact ⟨fun h => (by cases h), fun h => absurd rfl h.1⟩
  have h2 : Copier.Run id cSub ⟨true, false⟩ iy2 := by
    refine .step (.step h1 (.begin _ _ _ (src1_ok 10 [3]))) (.cleaned _ [] ?_ ?_ (List.nodup_nil))
    · intro n hn _
      show upd (upd (fun _ => none) 10 none) 10 (one 10 0 10) n = none
      have e : n ≠ 10 := by intro e; subst e; cases hn
      rw [upd_other _ _ _ _ e, upd_other _ _ _ _ e]
    · intro n
      exact ⟨fun h => (by cases h), fun h => absurd rfl h.1⟩
  exact ⟨.step (.step (.step (.step h2 (.filter _)) (.filtered _ true)) (.delete _)) (.prepared _ true), rfl, rfl, .next_file _, rfl, rfl⟩

/-- An install with an empty writer, after any of these: the file is copied. -/
def iz1 : Copier.State Nat Bytes := ((((iv4.crash.begin (src1 0 [7]) false).wipeFile 0).wiped).prepared true).next_file.write [7]
def iz2 : Copier.State Nat Bytes := ((iz1.copied).synced true).next_file

example : Copier.Run id cSub ⟨true, true⟩ iz2 ∧ iz2.pc = .ready ∧ iz2.fil = false ∧ iz2.src.tab 0 = some (some [7]) := by
  refine ⟨?_, rfl, rfl, rfl⟩
  have h1 : Copier.Run id cSub ⟨true, true⟩ iz1 :=
    .step (.step (.step (.step (.step (.step (.step (iv4_run _) (.crash _ rfl)) (.begin _ _ _ (src1_ok 0 [7]))) (.wipeFile _ 0)) (.wiped _))
      (.prepared _ true)) (.next_file _)) (.write _ [7])
  refine .step (.step (.step h1 (.copied _ ?_)) (.synced _ true)) (.next_file _)
  intro n rest i hpc hi
  have e1 : n = 0 := by
    have : (Pc.copying 0 [] : Pc Nat) = .copying n rest := hpc
    cases this; rfl
  subst e1
  have e2 : i = 2 := by
    have : some 2 = some i := hi
    injection this with this; exact this.symm
  subst e2
  exact copies_small [7] (by decide)

end install

end Braft.Props
