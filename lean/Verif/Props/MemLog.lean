import Verif.Store.MemLog
/-
C23: the in-memory log storage behaves as one array of entries.
-/
set_option linter.unusedVariables false
set_option linter.unusedSimpArgs false

namespace Braft.Props
open Braft.MemLog

variable {α : Type}

/-! ### Specification: an array of entries with consecutive indexes from `first` -/

namespace MemSpec

/-- Entry number `k` of `ents` has index `first + k`. -/
structure Arr (α : Type) where
  first : Int
  ents : List (Ent α)

def Arr.last (A : Arr α) : Int := A.first + A.ents.length - 1

/-- The entry with index `i`, if there is one. -/
def Arr.at (A : Arr α) (i : Int) : Option (Ent α) :=
  if A.first ≤ i then A.ents[(i - A.first).toNat]? else none

inductive Op (α : Type) where
  | append (es : List (Ent α))
  | truncPrefix (kept : Int)
  | truncSuffix (kept : Int)
  | reset (next : Int)

/-- The effect of an operation on the array. -/
def Arr.apply (A : Arr α) : Op α → Arr α
  | .append es => ⟨A.first, A.ents ++ es⟩
  | .truncPrefix k => ⟨k, A.ents.drop (k - A.first).toNat⟩
  | .truncSuffix k => ⟨A.first, A.ents.take (k + 1 - A.first).toNat⟩
  | .reset n => if n ≤ 0 then A else ⟨n, []⟩

/-- The contract of the callers: appended entries continue the log, and truncations stay within it
(a prefix truncation may go beyond the end). -/
def Arr.allows (A : Arr α) : Op α → Prop
  | .append es => ∀ (n : Nat) (e : Ent α), es[n]? = some e → e.index = A.last + 1 + n
  | .truncPrefix k => A.first ≤ k
  | .truncSuffix k => A.first - 1 ≤ k ∧ k ≤ A.last
  | .reset _ => True

end MemSpec

open MemSpec

/-- The storage's calls. -/
def memRun (m : Mem α) : Op α → Mem α
  | .append es => (m.append es).1
  | .truncPrefix k => m.truncatePrefix k
  | .truncSuffix k => m.truncateSuffix k
  | .reset n => (m.reset n).1

/-- A history of allowed calls on a new storage, next to the array. -/
inductive MemHist : Mem α → Arr α → Prop where
  | start : MemHist init ⟨1, []⟩
  | step {m A} (o : Op α) : MemHist m A → A.allows o → MemHist (memRun m o) (A.apply o)

theorem consec_of_idx (es : List (Ent α)) (f : Int)
    (h : ∀ (n : Nat) (e : Ent α), es[n]? = some e → e.index = f + n) : Consec f es := by
  induction es generalizing f with
  | nil => trivial
  | cons e es ih =>
    refine ⟨by simpa using h 0 e rfl, ih (f + 1) (fun n e' he => ?_)⟩
    have := h (n + 1) e' (by simpa using he)
    omega

theorem memHist_inv {m : Mem α} {A : Arr α} (h : MemHist m A) :
    Ok m ∧ m.first = A.first ∧ m.data = A.ents := by
  induction h with
  | start => exact ⟨init_ok, rfl, rfl⟩
  | @step m A o hh ha ih =>
    obtain ⟨hok, h1, h2⟩ := ih
    have hl : m.last = A.last := by unfold Arr.last; rw [← h1, ← h2]; exact hok.len
    cases o with
    | append es =>
      have hc : Consec (m.last + 1) es := consec_of_idx es _ (fun n e he => by rw [hl]; exact ha n e he)
      have hr := append_ok m hok es hc
      have hlen := hok.len
      show Ok (m.append es).1 ∧ (m.append es).1.first = A.first ∧ (m.append es).1.data = A.ents ++ es
      rw [hr]
      refine ⟨⟨hok.pos, ?_, ?_⟩, h1, ?_⟩
      · show m.last + es.length = m.first + (m.data ++ es).length - 1
        simp; omega
      · show Consec m.first (m.data ++ es)
        rw [consec_append]
        refine ⟨hok.idx, ?_⟩
        rw [show m.first + (m.data.length : Int) = m.last + 1 by omega]; exact hc
      · show m.data ++ es = _; rw [h2]
    | truncPrefix k =>
      have ha' : A.first ≤ k := ha
      have hd := dropWhile_consec m.first k m.data hok.idx
      have hlen := hok.len
      have hpos := hok.pos
      refine ⟨⟨?_, ?_, ?_⟩, rfl, ?_⟩
      · show 1 ≤ k; omega
      · show (if k > m.last then k - 1 else m.last) = k + ((m.data.dropWhile _).length : Int) - 1
        rw [hd, List.length_drop]
        split <;> omega
      · show Consec k (m.data.dropWhile _)
        rw [hd]
        by_cases hk : (k - m.first).toNat ≤ m.data.length
        · have := consec_drop m.first m.data hok.idx (k - m.first).toNat hk
          rwa [show m.first + ((k - m.first).toNat : Int) = k by omega] at this
        · rw [List.drop_eq_nil_of_le (by omega)]; trivial
      · show m.data.dropWhile _ = A.ents.drop _
        rw [hd, h2, h1]
    | truncSuffix k =>
      obtain ⟨ha1, ha2⟩ := ha
      have hp := popBack_consec m.first k m.data hok.idx
      have hlen := hok.len
      have hpos := hok.pos
      have hf : (memRun m (.truncSuffix k)).first = m.first := by
        show (if m.first > k then k + 1 else m.first) = m.first
        split <;> omega
      refine ⟨⟨?_, ?_, ?_⟩, ?_, ?_⟩
      · rw [hf]; exact hpos
      · rw [hf]
        show k = m.first + ((popBack k m.data).length : Int) - 1
        rw [hp, List.length_take]
        omega
      · rw [hf]
        show Consec m.first (popBack k m.data)
        rw [hp]; exact consec_take _ _ hok.idx _
      · rw [hf]; exact h1
      · show popBack k m.data = A.ents.take _
        rw [hp, h2, h1]
    | reset n =>
      show Ok (m.reset n).1 ∧ (m.reset n).1.first = (if n ≤ 0 then A else ⟨n, []⟩ : Arr α).first ∧
        (m.reset n).1.data = (if n ≤ 0 then A else ⟨n, []⟩ : Arr α).ents
      unfold Mem.reset
      by_cases hn : n ≤ 0
      · rw [if_pos hn, if_pos hn]; exact ⟨hok, h1, h2⟩
      · rw [if_neg hn, if_neg hn]
        refine ⟨⟨?_, ?_, trivial⟩, rfl, rfl⟩
        · show 1 ≤ n; omega
        · show n - 1 = n + ((([] : List (Ent α)).length : Nat) : Int) - 1; simp

/-- C23: after every history of calls that respects the callers' contract, the in-memory storage
shows exactly the array: its first and last index, the entry and the term at every index (nothing,
respectively 0, outside), and no CHECK fails. -/
theorem C23_array {m : Mem α} {A : Arr α} (h : MemHist m A) :
    m.first = A.first ∧ m.last = A.last ∧
    ∀ i, m.getEntry i = (match A.at i with | some e => .ok e | none => .none) ∧
      m.getTerm i = .ok (match A.at i with | some e => e.term | none => 0) := by
  obtain ⟨hok, h1, h2⟩ := memHist_inv h
  have hl : m.last = A.last := by unfold Arr.last; rw [← h1, ← h2]; exact hok.len
  refine ⟨h1, hl, fun i => ?_⟩
  have hlen := hok.len
  unfold Mem.getEntry Mem.getTerm Arr.at
  rw [← h1, ← h2]
  by_cases hin : i < m.first ∨ i > m.last
  · rw [if_pos hin, if_pos hin]
    by_cases hf : m.first ≤ i
    · rw [if_pos hf, List.getElem?_eq_none (by omega)]; exact ⟨rfl, rfl⟩
    · rw [if_neg hf]; exact ⟨rfl, rfl⟩
  · rw [if_neg hin, if_neg hin, if_pos (by omega)]
    have hb : (i - m.first).toNat < m.data.length := by omega
    have he := List.getElem?_eq_getElem hb
    have hi := consec_get _ _ hok.idx _ _ he
    have : m.data[(i - m.first).toNat].index = i := by omega
    rw [he]
    dsimp only
    rw [if_pos this, if_pos this]
    exact ⟨rfl, rfl⟩

/-- C23: an allowed append reports the number of entries, and an allowed reset fails exactly on
indexes that are not positive. -/
theorem C23_results {m : Mem α} {A : Arr α} (h : MemHist m A) :
    (∀ es, A.allows (.append es) → (m.append es).2 = es.length) ∧
    (∀ n, (m.reset n).2 = decide (0 < n)) := by
  obtain ⟨hok, h1, h2⟩ := memHist_inv h
  have hl : m.last = A.last := by unfold Arr.last; rw [← h1, ← h2]; exact hok.len
  refine ⟨fun es ha => ?_, fun n => ?_⟩
  · have hc : Consec (m.last + 1) es := consec_of_idx es _ (fun n e he => by rw [hl]; exact ha n e he)
    rw [append_ok m hok es hc]
  · unfold Mem.reset
    by_cases hn : n ≤ 0
    · rw [if_pos hn]; symm; simpa using hn
    · rw [if_neg hn]; symm; simpa using hn

/-! A history that meets the hypotheses: three entries, the first compacted, the last removed. -/

def memDemo : Mem Nat :=
  memRun (memRun (memRun init (.append [⟨1, 1, 10⟩, ⟨2, 1, 20⟩, ⟨3, 2, 30⟩])) (.truncPrefix 2)) (.truncSuffix 2)

example : ∃ A, MemHist memDemo A ∧ A.at 2 = some ⟨2, 1, 20⟩ ∧ A.at 1 = none ∧ A.at 3 = none := by
  refine ⟨_, .step _ (.step _ (.step _ .start ?_) ?_) ?_, ?_⟩
  · intro n e he
    match n with
    | 0 => simp at he; subst he; rfl
    | 1 => simp at he; subst he; rfl
    | 2 => simp at he; subst he; rfl
    | n + 3 => simp at he
  · show (1 : Int) ≤ 2; decide
  · exact ⟨by decide, by decide⟩
  · decide

example : memDemo.getEntry 2 = .ok ⟨2, 1, 20⟩ ∧ memDemo.getEntry 3 = .none ∧ memDemo.getTerm 2 = .ok 1 := by decide

/-- Outside the contract 1 (the property as stated ranges over all operation sequences): an append
that does not continue the log stores nothing, yet append_entries reports that all entries were
stored (append_entry's ERANGE is ignored, memory_log.cpp:78-82). -/
theorem C23_gap_reported_as_success (m : Mem α) (e : Ent α) (h : e.index ≠ m.last + 1) :
    m.append [e] = (m, 1) := by
  simp [Mem.append, Mem.appendLoop, Mem.appendEntry, h]

example : (init : Mem Nat).append [⟨5, 1, 0⟩] = (init, 1) := by decide

/-- Outside the contract 2: truncate_prefix below the first index, which SegmentLogStorage ignores,
lowers first_log_index without any data behind it, and reading an existing entry then fails the CHECK
or runs off the end of the deque (memory_log.cpp:97). -/
theorem C23_prefix_below_first_breaks :
    ∃ (m : Mem Nat) (A : Arr Nat), MemHist m A ∧ A.at 3 = some ⟨3, 1, 30⟩ ∧ m.getEntry 3 = .ok ⟨3, 1, 30⟩ ∧
      (m.truncatePrefix 1).getEntry 1 = .bug ∧ (m.truncatePrefix 1).getEntry 3 = .bug := by
  refine ⟨_, _, .step (.append [⟨3, 1, 30⟩]) (.step (.reset 3) .start trivial) ?_, ?_⟩
  · intro n e he
    match n with
    | 0 => simp at he; subst he; rfl
    | n + 1 => simp at he
  · decide

end Braft.Props
