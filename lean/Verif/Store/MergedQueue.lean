import Verif.Store.Meta
/-
The merged meta storage of many groups: one leveldb, one queue of writes (KVBasedMergedMetaStorageImpl, raft_meta.cpp:680-866).

* Keys are any type (VersionedGroupId); values are pairs of term and vote. leveldb applies a batch wholly or not at all; a write
  that fails may have been applied (`W` of Store/Meta).
* The consumer of the queue takes tasks in the order they were put in and writes when the batch is full or when it sees no more
  tasks, which may be at any moment.
* Killing the process loses what is queued; leveldb keeps what was written (power failures are not modelled).
* `subs` and `ev` are history: what was put into the queue, and what callers were answered and what was deleted, newest first.
-/
set_option linter.unusedVariables false
set_option linter.unusedSimpArgs false
set_option linter.unusedSectionVars false

namespace Braft.Merged
open Braft.Meta
variable {K : Type} [DecidableEq K]

/-- WriteTask (raft_meta.h:155-161); `id` tells tasks apart. -/
structure Task (K : Type) where
  id : Nat
  key : K
  val : Pair
deriving DecidableEq

/-- History. -/
inductive Ev (K : Type) where
  | ans (t : Task K) (ok : Bool)
  | del (k : K)
deriving DecidableEq

structure State (K : Type) where
  db : K → Option Pair
  queue : List (Task K)
  /-- `updates` and `dones` of `run`. -/
  cur : List (Task K)
  next : Nat
  subs : List (Task K)
  ev : List (Ev K)
  crashes : Nat

def State.init : State K := ⟨fun _ => none, [], [], 0, [], [], 0⟩

/-- WriteBatch::Put, one after another (raft_meta.cpp:733). -/
def putAll (db : K → Option Pair) (l : List (Task K)) : K → Option Pair :=
  l.foldl (fun d t => fun k => if k = t.key then some t.val else d k) db

/-- What a batch that ends as `w` leaves. -/
def written (w : W) (db : K → Option Pair) (l : List (Task K)) : K → Option Pair :=
  match w with
  | .ok => putAll db l
  | .kept => putAll db l
  | .lost => db

inductive Act (K : Type) where
  | set (k : K) (v : Pair)
  | get (k : K)
  | take
  | flush (w : W)
  | delete (k : K) (w : W)
  | kill
  | killIn (w : W)

/-- One step; none if it cannot be taken. `B` is raft_meta_write_batch. -/
def step (B : Nat) (s : State K) : Act K → Option (State K)
  -- set_term_and_votedfor (raft_meta.cpp:745-763); a task the queue refuses changes nothing
  | .set k v => some { s with queue := s.queue ++ [⟨s.next, k, v⟩], subs := s.subs ++ [⟨s.next, k, v⟩], next := s.next + 1 }
  -- get_term_and_votedfor (raft_meta.cpp:765-800): the record, or the initial pair is put into the queue
  | .get k => match s.db k with
    | some _ => some s
    | none => some { s with queue := s.queue ++ [⟨s.next, k, .fresh⟩], subs := s.subs ++ [⟨s.next, k, .fresh⟩], next := s.next + 1 }
  -- one iteration (raft_meta.cpp:717-735), the batch is not full
  | .take => match s.queue with
    | [] => none
    | t :: q => if s.cur.length < B then some { s with queue := q, cur := s.cur ++ [t] } else none
  -- run_tasks (raft_meta.cpp:680-703, 718-722, 737-741)
  | .flush w => if s.cur = [] then none else
    some { s with db := written w s.db s.cur, cur := [], ev := (s.cur.map (fun t => .ans t (decide (w = .ok)))).reverse ++ s.ev }
  -- delete_meta (raft_meta.cpp:834-866), straight into leveldb
  | .delete k w => match w with
    | .lost => some s
    | _ => some { s with db := fun x => if x = k then none else s.db x, ev := .del k :: s.ev }
  -- the process is killed, and starts again
  | .kill => some { s with queue := [], cur := [], crashes := s.crashes + 1 }
  -- … inside run_tasks
  | .killIn w => some { s with db := written w s.db s.cur, queue := [], cur := [], crashes := s.crashes + 1 }

inductive Reach (B : Nat) : State K → Prop where
  | init : Reach B .init
  | step {s s'} (a : Act K) : Reach B s → step B s a = some s' → Reach B s'

/-- The last task of a key that was answered with success since the key was last deleted. -/
def lastOk (k : K) : List (Ev K) → Option (Task K)
  | [] => none
  | .ans t ok :: l => if ok = true ∧ t.key = k then some t else lastOk k l
  | .del k' :: l => if k' = k then none else lastOk k l

/-- The tasks that were answered, oldest first. -/
def answered : List (Ev K) → List (Task K)
  | [] => []
  | .ans t _ :: l => answered l ++ [t]
  | .del _ :: l => answered l

/-- The last task of a key in a batch. -/
def lastOf (k : K) : List (Task K) → Option (Task K)
  | [] => none
  | t :: l => match lastOf k l with
    | some u => some u
    | none => if t.key = k then some t else none

theorem putAll_eq (l : List (Task K)) (db : K → Option Pair) (k : K) :
    putAll db l k = match lastOf k l with | some t => some t.val | none => db k := by
  induction l generalizing db with
  | nil => rfl
  | cons t l ih =>
    show putAll (fun x => if x = t.key then some t.val else db x) l k = _
    rw [ih]
    simp only [lastOf]
    cases h : lastOf k l with
    | some u => rfl
    | none =>
      dsimp only
      by_cases e : t.key = k
      · rw [if_pos e, if_pos e.symm]
      · rw [if_neg e, if_neg (fun x => e x.symm)]

theorem lastOf_mem {k : K} {l : List (Task K)} {t : Task K} (h : lastOf k l = some t) : t ∈ l ∧ t.key = k := by
  induction l with
  | nil => cases h
  | cons u l ih =>
    unfold lastOf at h
    cases hl : lastOf k l with
    | some x => rw [hl] at h; cases h; exact ⟨List.mem_cons_of_mem _ (ih hl).1, (ih hl).2⟩
    | none =>
      rw [hl] at h; dsimp only at h
      split at h
      · rename_i e; cases h; exact ⟨List.mem_cons_self, e⟩
      · cases h

theorem lastOk_append (k : K) (l : List (Task K)) (ok : Bool) (ev : List (Ev K)) :
    lastOk k ((l.map (fun t => Ev.ans t ok)).reverse ++ ev) =
      if ok = true then (match lastOf k l with | some t => some t | none => lastOk k ev) else lastOk k ev := by
  induction l generalizing ev with
  | nil => cases ok <;> rfl
  | cons t l ih =>
    rw [List.map_cons, List.reverse_cons, List.append_assoc, ih]
    show (if ok = true then _ else lastOk k (Ev.ans t ok :: ev)) = _
    cases ok with
    | false => simp [lastOk]
    | true =>
      simp only [if_true, List.singleton_append, lastOk, lastOf, true_and]
      cases h : lastOf k l with
      | some u => rfl
      | none => dsimp only; split <;> rfl

theorem answered_append (l : List (Task K)) (ok : Bool) (ev : List (Ev K)) :
    answered ((l.map (fun t => Ev.ans t ok)).reverse ++ ev) = answered ev ++ l := by
  induction l generalizing ev with
  | nil => simp
  | cons t l ih =>
    rw [List.map_cons, List.reverse_cons, List.append_assoc, ih]
    show (answered ev ++ [t]) ++ l = _
    simp

/-- Tasks of a list are in order and between bounds. -/
def Sorted (l : List (Task K)) : Prop := l.Pairwise (fun a b => a.id < b.id)

structure Inv (s : State K) : Prop where
  /-- Everything put in, in the order of ids. -/
  subs : Sorted s.subs
  below : ∀ t ∈ s.subs, t.id < s.next
  /-- What waits was put in, in order. -/
  pend : Sorted (s.cur ++ s.queue)
  pendIn : ∀ t ∈ s.cur ++ s.queue, t ∈ s.subs
  /-- A record comes from a task of its key that waits no longer. -/
  from' : ∀ k v, s.db k = some v → ∃ t ∈ s.subs, t.key = k ∧ t.val = v ∧ ∀ u ∈ s.cur ++ s.queue, t.id < u.id
  /-- The record is not older than the last success. -/
  last : ∀ k t, lastOk k s.ev = some t → t ∈ s.subs ∧ t.key = k ∧ (∀ u ∈ s.cur ++ s.queue, t.id < u.id) ∧
    ∃ u ∈ s.subs, u.key = k ∧ s.db k = some u.val ∧ t.id ≤ u.id ∧ ∀ x ∈ s.cur ++ s.queue, u.id < x.id
  /-- Answers are in order. -/
  ans : Sorted (answered s.ev ++ s.cur ++ s.queue)
  ansIn : ∀ t ∈ answered s.ev, t ∈ s.subs
  all : s.crashes = 0 → s.subs = answered s.ev ++ s.cur ++ s.queue

theorem inv_init : Inv (State.init : State K) := by
  refine ⟨List.Pairwise.nil, ?_, List.Pairwise.nil, ?_, ?_, ?_, List.Pairwise.nil, ?_, fun _ => rfl⟩
  · intro t ht; cases ht
  · intro t ht; cases ht
  · intro k v h; cases h
  · intro k t h; cases h
  · intro t ht; cases ht

theorem inv_sub {s : State K} (h : Inv s) (k : K) (v : Pair) :
    Inv { s with queue := s.queue ++ [⟨s.next, k, v⟩], subs := s.subs ++ [⟨s.next, k, v⟩], next := s.next + 1 } := by
  obtain ⟨h1, h2, h3, h4, h5, h6, h7, h8, h9⟩ := h
  have lt : ∀ t ∈ s.subs, t.id < s.next := h2
  refine ⟨?_, ?_, ?_, ?_, ?_, ?_, ?_, ?_, ?_⟩ <;> dsimp only
  · unfold Sorted; rw [List.pairwise_append]
    exact ⟨h1, by simp, by intro a ha b hb; simp at hb; subst hb; exact lt a ha⟩
  · intro t ht; rcases List.mem_append.mp ht with ht | ht
    · have := lt t ht; omega
    · simp at ht; subst ht; dsimp only; omega
  · unfold Sorted; rw [← List.append_assoc, List.pairwise_append]
    exact ⟨h3, by simp, by intro a ha b hb; simp at hb; subst hb; exact lt a (h4 a ha)⟩
  · intro t ht; rw [← List.append_assoc] at ht
    rcases List.mem_append.mp ht with ht | ht
    · exact List.mem_append_left _ (h4 t ht)
    · exact List.mem_append_right _ ht
  · intro k' v' hd
    obtain ⟨t, ht, e1, e2, hu⟩ := h5 k' v' hd
    refine ⟨t, List.mem_append_left _ ht, e1, e2, ?_⟩
    intro u hu'; rw [← List.append_assoc] at hu'
    rcases List.mem_append.mp hu' with hu' | hu'
    · exact hu u hu'
    · simp at hu'; subst hu'; exact lt t ht
  · intro k' t hl
    obtain ⟨a, b, c, u, d, e, f, g, i⟩ := h6 k' t hl
    have ext : ∀ x ∈ s.subs, (∀ y ∈ s.cur ++ s.queue, x.id < y.id) →
        ∀ y ∈ s.cur ++ (s.queue ++ [⟨s.next, k, v⟩]), x.id < y.id := by
      intro x hx hh y hy; rw [← List.append_assoc] at hy
      rcases List.mem_append.mp hy with hy | hy
      · exact hh y hy
      · simp at hy; subst hy; exact lt x hx
    exact ⟨List.mem_append_left _ a, b, ext t a c, u, List.mem_append_left _ d, e, f, g, ext u d i⟩
  · unfold Sorted; rw [← List.append_assoc, List.pairwise_append]
    refine ⟨h7, by simp, ?_⟩
    intro a ha b hb; simp at hb; subst hb
    have : a ∈ s.subs := by
      rcases List.mem_append.mp ha with ha | ha
      · rcases List.mem_append.mp ha with ha | ha
        · exact h8 a ha
        · exact h4 a (List.mem_append_left _ ha)
      · exact h4 a (List.mem_append_right _ ha)
    exact lt a this
  · intro t ht; exact List.mem_append_left _ (h8 t ht)
  · intro hc; rw [h9 hc]; simp

/-- What a batch of tasks that come after everything written does to a record. -/
theorem written_from {s : State K} (h : Inv s) (w : W) (k : K) (v : Pair) (hd : written w s.db s.cur k = some v) :
    ∃ t ∈ s.subs, t.key = k ∧ t.val = v ∧ ∀ u ∈ s.queue, t.id < u.id := by
  have old : s.db k = some v → ∃ t ∈ s.subs, t.key = k ∧ t.val = v ∧ ∀ u ∈ s.queue, t.id < u.id := by
    intro hd
    obtain ⟨t, a, b, c, d⟩ := h.from' k v hd
    exact ⟨t, a, b, c, fun u hu => d u (List.mem_append_right _ hu)⟩
  have new : putAll s.db s.cur k = some v → ∃ t ∈ s.subs, t.key = k ∧ t.val = v ∧ ∀ u ∈ s.queue, t.id < u.id := by
    intro hd
    rw [putAll_eq] at hd
    cases hl : lastOf k s.cur with
    | none => rw [hl] at hd; exact old hd
    | some t =>
      rw [hl] at hd; cases hd
      obtain ⟨hm, hk⟩ := lastOf_mem hl
      exact ⟨t, h.pendIn t (List.mem_append_left _ hm), hk, rfl, fun u hu => (List.pairwise_append.mp h.pend).2.2 t hm u hu⟩
  cases w with
  | ok => exact new hd
  | kept => exact new hd
  | lost => exact old hd

/-- … and to one not older than the last success. -/
theorem written_last {s : State K} (h : Inv s) (w : W) (k : K) (t : Task K) (hl : lastOk k s.ev = some t) :
    ∃ u ∈ s.subs, u.key = k ∧ written w s.db s.cur k = some u.val ∧ t.id ≤ u.id ∧ ∀ x ∈ s.queue, u.id < x.id := by
  obtain ⟨a, b, c, u, d, e, f, g, i⟩ := h.last k t hl
  have old : ∃ u ∈ s.subs, u.key = k ∧ s.db k = some u.val ∧ t.id ≤ u.id ∧ ∀ x ∈ s.queue, u.id < x.id :=
    ⟨u, d, e, f, g, fun x hx => i x (List.mem_append_right _ hx)⟩
  have new : ∃ u ∈ s.subs, u.key = k ∧ putAll s.db s.cur k = some u.val ∧ t.id ≤ u.id ∧ ∀ x ∈ s.queue, u.id < x.id := by
    rw [putAll_eq]
    cases ho : lastOf k s.cur with
    | none => exact old
    | some y =>
      obtain ⟨hm, hk⟩ := lastOf_mem ho
      exact ⟨y, h.pendIn y (List.mem_append_left _ hm), hk, rfl, Nat.le_of_lt (c y (List.mem_append_left _ hm)),
        fun x hx => (List.pairwise_append.mp h.pend).2.2 y hm x hx⟩
  cases w with
  | ok => exact new
  | kept => exact new
  | lost => exact old

theorem inv_step {B : Nat} {s s' : State K} (h : Inv s) (a : Act K) (hs : step B s a = some s') : Inv s' := by
  cases a with
  | set k v => cases hs; exact inv_sub h k v
  | get k =>
    unfold step at hs; dsimp only at hs
    cases hd : s.db k with
    | some x => rw [hd] at hs; cases hs; exact h
    | none => rw [hd] at hs; cases hs; exact inv_sub h k _
  | take =>
    unfold step at hs; dsimp only at hs
    cases hq : s.queue with
    | nil => rw [hq] at hs; cases hs
    | cons t q =>
      rw [hq] at hs; dsimp only at hs
      split at hs
      · cases hs
        obtain ⟨h1, h2, h3, h4, h5, h6, h7, h8, h9⟩ := h
        have e : (s.cur ++ [t]) ++ q = s.cur ++ s.queue := by rw [hq]; simp
        refine ⟨h1, h2, ?_, ?_, ?_, ?_, ?_, h8, ?_⟩ <;> dsimp only
        · rw [e]; exact h3
        · rw [e]; exact h4
        · rw [e]; exact h5
        · rw [e]; exact h6
        · rw [List.append_assoc, e, ← List.append_assoc]; exact h7
        · intro hc; rw [List.append_assoc, e, ← List.append_assoc]; exact h9 hc
      · cases hs
  | flush w =>
    unfold step at hs; dsimp only at hs
    split at hs
    · cases hs
    · cases hs
      have h' := h
      obtain ⟨h1, h2, h3, h4, h5, h6, h7, h8, h9⟩ := h
      refine ⟨h1, h2, ?_, ?_, ?_, ?_, ?_, ?_, ?_⟩ <;> dsimp only
      · exact (List.pairwise_append.mp h3).2.1
      · intro t ht; exact h4 t (List.mem_append_right _ ht)
      · intro k v hd; exact written_from h' w k v hd
      · intro k t hl
        rw [lastOk_append] at hl
        simp only [List.nil_append]
        have old : lastOk k s.ev = some t → t ∈ s.subs ∧ t.key = k ∧ (∀ u ∈ s.queue, t.id < u.id) ∧
            ∃ u ∈ s.subs, u.key = k ∧ written w s.db s.cur k = some u.val ∧ t.id ≤ u.id ∧ ∀ x ∈ s.queue, u.id < x.id := by
          intro hl
          obtain ⟨a, b, c, _⟩ := h6 k t hl
          exact ⟨a, b, fun u hu => c u (List.mem_append_right _ hu), written_last h' w k t hl⟩
        split at hl
        · rename_i hw
          have hw : w = .ok := by simpa using hw
          subst hw
          cases ho : lastOf k s.cur with
          | none => rw [ho] at hl; exact old hl
          | some y =>
            rw [ho] at hl
            have e : y = t := Option.some.inj hl
            subst e
            obtain ⟨hm, hk⟩ := lastOf_mem ho
            have hin := h4 y (List.mem_append_left _ hm)
            have hlt : ∀ u ∈ s.queue, y.id < u.id := fun u hu => (List.pairwise_append.mp h3).2.2 y hm u hu
            refine ⟨hin, hk, hlt, y, hin, hk, ?_, Nat.le_refl _, hlt⟩
            show putAll s.db s.cur k = _
            rw [putAll_eq, ho]
        · exact old hl
      · rw [answered_append, List.append_nil]; exact h7
      · intro t ht
        rw [answered_append] at ht
        rcases List.mem_append.mp ht with ht | ht
        · exact h8 t ht
        · exact h4 t (List.mem_append_left _ ht)
      · intro hc; rw [answered_append, List.append_nil]; exact h9 hc
  | delete k w =>
    have main : Inv { s with db := fun x => if x = k then none else s.db x, ev := .del k :: s.ev } := by
      obtain ⟨h1, h2, h3, h4, h5, h6, h7, h8, h9⟩ := h
      refine ⟨h1, h2, h3, h4, ?_, ?_, h7, h8, h9⟩ <;> dsimp only
      · intro k' v hd
        split at hd
        · cases hd
        · exact h5 k' v hd
      · intro k' t hl
        unfold lastOk at hl
        split at hl
        · cases hl
        · rename_i e
          rw [if_neg (fun x => e x.symm)]
          exact h6 k' t hl
    unfold step at hs; dsimp only at hs
    cases w with
    | lost => cases hs; exact h
    | ok => cases hs; exact main
    | kept => cases hs; exact main
  | kill =>
    cases hs
    obtain ⟨h1, h2, h3, h4, h5, h6, h7, h8, h9⟩ := h
    refine ⟨h1, h2, List.Pairwise.nil, ?_, ?_, ?_, ?_, h8, ?_⟩ <;> dsimp only
    · intro t ht; cases ht
    · intro k v hd
      obtain ⟨t, a, b, c, d⟩ := h5 k v hd
      exact ⟨t, a, b, c, fun u hu => by cases hu⟩
    · intro k t hl
      obtain ⟨a, b, c, u, d, e, f, g, i⟩ := h6 k t hl
      exact ⟨a, b, (fun u hu => by cases hu), u, d, e, f, g, fun x hx => by cases hx⟩
    · rw [List.append_nil, List.append_nil]
      exact (List.pairwise_append.mp (List.pairwise_append.mp h7).1).1
    · intro hc; cases hc
  | killIn w =>
    cases hs
    have h' := h
    obtain ⟨h1, h2, h3, h4, h5, h6, h7, h8, h9⟩ := h
    refine ⟨h1, h2, List.Pairwise.nil, ?_, ?_, ?_, ?_, h8, ?_⟩ <;> dsimp only
    · intro t ht; cases ht
    · intro k v hd
      obtain ⟨t, a, b, c, d⟩ := written_from h' w k v hd
      exact ⟨t, a, b, c, fun u hu => by cases hu⟩
    · intro k t hl
      obtain ⟨a, b, c, _⟩ := h6 k t hl
      obtain ⟨u, d, e, f, g, i⟩ := written_last h' w k t hl
      exact ⟨a, b, (fun u hu => by cases hu), u, d, e, f, g, fun x hx => by cases hx⟩
    · rw [List.append_nil, List.append_nil]
      exact (List.pairwise_append.mp (List.pairwise_append.mp h7).1).1
    · intro hc; cases hc

theorem inv {B : Nat} {s : State K} (h : Reach B s) : Inv s := by
  induction h with
  | init => exact inv_init
  | step a _ hs ih => exact inv_step ih a hs

end Braft.Merged
