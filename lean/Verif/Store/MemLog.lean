/-
Model of MemoryLogStorage (memory_log.cpp:24-156, memory_log.h:33-91).

The mutex serialises the calls; the two atomics are written while it is held, so every call is one
step. Reference counting of LogEntry is not modelled. A CHECK that fails is the separate outcome
`bug` of the read functions (without NDEBUG semantics CHECK aborts or logs, in both cases the wrong
entry would be handed out).
-/
set_option linter.unusedVariables false
set_option linter.unusedSimpArgs false

namespace Braft.MemLog

/-- LogEntry as far as the storage looks at it (log_entry.h:33-57): id.index, id.term, the rest. -/
structure Ent (α : Type) where
  index : Int
  term : Int
  val : α
deriving DecidableEq, Repr

/-- MemoryLogStorage's fields (memory_log.h:85-90). -/
structure Mem (α : Type) where
  first : Int
  last : Int
  data : List (Ent α)
deriving DecidableEq, Repr

/-- MemoryLogStorage::init and the constructor (memory_log.cpp:24-28, memory_log.h:37-43). `init`
does not touch the deque, which is empty in a new object. -/
def init {α : Type} : Mem α := ⟨1, 0, []⟩

/-- What a read can give: nothing, an entry, or a violated CHECK / an out-of-range deque access. -/
inductive Read (β : Type) where
  | none
  | ok (b : β)
  | bug
deriving DecidableEq, Repr

variable {α : Type}

/-- MemoryLogStorage::get_entry (memory_log.cpp:30-42). `_log_entry_data[i]` beyond the deque is
undefined behaviour: `bug`. -/
def Mem.getEntry (m : Mem α) (i : Int) : Read (Ent α) :=
  if i < m.first ∨ i > m.last then .none
  else match m.data[(i - m.first).toNat]? with
    | .none => .bug
    | .some e => if e.index = i then .ok e else .bug

/-- MemoryLogStorage::get_term (memory_log.cpp:44-56); 0 outside the log; `at` throws beyond the
deque: `bug`. -/
def Mem.getTerm (m : Mem α) (i : Int) : Read Int :=
  if i < m.first ∨ i > m.last then .ok 0
  else match m.data[(i - m.first).toNat]? with
    | .none => .bug
    | .some e => if e.index = i then .ok e.term else .bug

/-- MemoryLogStorage::append_entry (memory_log.cpp:58-71): new state and whether it returned 0. -/
def Mem.appendEntry (m : Mem α) (e : Ent α) : Mem α × Bool :=
  if e.index ≠ m.last + 1 then (m, false)
  else (⟨m.first, m.last + 1, m.data ++ [e]⟩, true)

/-- The loop of MemoryLogStorage::append_entries (memory_log.cpp:78-81): the result of append_entry is
not looked at. -/
def Mem.appendLoop (m : Mem α) : List (Ent α) → Mem α
  | [] => m
  | e :: es => (m.appendEntry e).1.appendLoop es

/-- MemoryLogStorage::append_entries (memory_log.cpp:73-83): new state and returned number. -/
def Mem.append (m : Mem α) (es : List (Ent α)) : Mem α × Nat :=
  if es.isEmpty then (m, 0) else (m.appendLoop es, es.length)

/-- MemoryLogStorage::truncate_prefix (memory_log.cpp:85-108). -/
def Mem.truncatePrefix (m : Mem α) (kept : Int) : Mem α :=
  ⟨kept, if kept > m.last then kept - 1 else m.last, m.data.dropWhile (fun e => decide (e.index < kept))⟩

/-- Popping from the back while the index is greater than `kept` (memory_log.cpp:113-121). -/
def popBack (kept : Int) (l : List (Ent α)) : List (Ent α) :=
  (l.reverse.dropWhile (fun e => decide (e.index > kept))).reverse

/-- MemoryLogStorage::truncate_suffix (memory_log.cpp:110-133). -/
def Mem.truncateSuffix (m : Mem α) (kept : Int) : Mem α :=
  ⟨if m.first > kept then kept + 1 else m.first, kept, popBack kept m.data⟩

/-- MemoryLogStorage::reset (memory_log.cpp:135-156): new state and whether it returned 0. -/
def Mem.reset (m : Mem α) (next : Int) : Mem α × Bool :=
  if next ≤ 0 then (m, false) else (⟨next, next - 1, []⟩, true)

/-! ## Lemmas -/

/-- The entries carry consecutive indexes from `f`. -/
def Consec (f : Int) : List (Ent α) → Prop
  | [] => True
  | e :: es => e.index = f ∧ Consec (f + 1) es

theorem consec_append (f : Int) (a b : List (Ent α)) :
    Consec f (a ++ b) ↔ Consec f a ∧ Consec (f + a.length) b := by
  induction a generalizing f with
  | nil => simp [Consec]
  | cons e es ih =>
    simp only [List.cons_append, Consec, ih, and_assoc, List.length_cons]
    rw [show f + 1 + (es.length : Int) = f + ((es.length + 1 : Nat) : Int) by omega]

theorem consec_get (f : Int) (l : List (Ent α)) (h : Consec f l) (n : Nat) (e : Ent α)
    (he : l[n]? = some e) : e.index = f + n := by
  induction l generalizing f n with
  | nil => simp at he
  | cons a l ih =>
    cases n with
    | zero => simp at he; subst he; have := h.1; omega
    | succ n =>
      simp at he
      have := ih (f + 1) h.2 n he
      omega

theorem consec_drop (f : Int) (l : List (Ent α)) (h : Consec f l) (n : Nat) (hn : n ≤ l.length) :
    Consec (f + n) (l.drop n) := by
  rw [← List.take_append_drop n l, consec_append] at h
  have := h.2
  rwa [List.length_take, Nat.min_eq_left hn] at this

theorem consec_take (f : Int) (l : List (Ent α)) (h : Consec f l) (n : Nat) : Consec f (l.take n) := by
  rw [← List.take_append_drop n l, consec_append] at h
  exact h.1

theorem dropWhile_consec (f k : Int) (l : List (Ent α)) (h : Consec f l) :
    l.dropWhile (fun e => decide (e.index < k)) = l.drop (k - f).toNat := by
  induction l generalizing f with
  | nil => simp
  | cons e es ih =>
    have he := h.1
    by_cases hk : e.index < k
    · rw [List.dropWhile_cons_of_pos (by simpa using hk), ih (f + 1) h.2]
      rw [show (k - f).toNat = (k - (f + 1)).toNat + 1 by omega]
      rfl
    · rw [List.dropWhile_cons_of_neg (by simpa using hk), show (k - f).toNat = 0 by omega]
      rfl

theorem popBack_consec (f k : Int) (l : List (Ent α)) (h : Consec f l) :
    popBack k l = l.take (k + 1 - f).toNat := by
  unfold popBack
  generalize hr : l.reverse = r
  have hl : l = r.reverse := by rw [← hr, List.reverse_reverse]
  subst hl
  clear hr
  induction r with
  | nil => simp
  | cons e r ih =>
    rw [List.reverse_cons, consec_append] at h
    have he : e.index = f + r.length := by have := h.2.1; simpa using this
    by_cases hk : e.index > k
    · rw [List.dropWhile_cons_of_pos (by simpa using hk), ih h.1, List.reverse_cons,
        List.take_append_of_le_length (by rw [List.length_reverse]; omega)]
    · rw [List.dropWhile_cons_of_neg (by simpa using hk)]
      exact (List.take_of_length_le (by simp; omega)).symm

/-- The invariant: the deque holds the entries first..last. -/
structure Ok (m : Mem α) : Prop where
  pos : 1 ≤ m.first
  len : m.last = m.first + m.data.length - 1
  idx : Consec m.first m.data

theorem init_ok : Ok (init : Mem α) := ⟨Int.le_refl 1, by simp [init], trivial⟩

theorem appendLoop_ok (es : List (Ent α)) (m : Mem α) (h : Ok m) (he : Consec (m.last + 1) es) :
    m.appendLoop es = ⟨m.first, m.last + es.length, m.data ++ es⟩ := by
  induction es generalizing m with
  | nil => simp [Mem.appendLoop]
  | cons e es ih =>
    have h1 : m.appendEntry e = (⟨m.first, m.last + 1, m.data ++ [e]⟩, true) := by
      unfold Mem.appendEntry; rw [if_neg (by have := he.1; omega)]
    rw [Mem.appendLoop, h1]
    dsimp only
    have hl := h.len
    rw [ih ⟨m.first, m.last + 1, m.data ++ [e]⟩]
    · simp; omega
    · refine ⟨h.pos, ?_, ?_⟩
      · simp; omega
      · show Consec m.first (m.data ++ [e])
        rw [consec_append]
        exact ⟨h.idx, by have := he.1; omega, trivial⟩
    · exact he.2

/-- One append of consecutive entries. -/
theorem append_ok (m : Mem α) (h : Ok m) (es : List (Ent α)) (he : Consec (m.last + 1) es) :
    m.append es = (⟨m.first, m.last + es.length, m.data ++ es⟩, es.length) := by
  unfold Mem.append
  cases es with
  | nil => simp
  | cons e es => simp only [List.isEmpty_cons]; rw [appendLoop_ok _ m h he]; simp

end Braft.MemLog
