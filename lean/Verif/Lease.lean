import Verif.Ballot
/-
Models of src/braft/lease.{h,cpp} and of the timestamp a leader renews its lease with
(src/braft/node.cpp:3611-3648). Times are `butil::monotonic_time_ms()` values as naturals.
The gflag `raft_enable_leader_lease` is an argument where the code reads it.
-/
set_option linter.unusedVariables false
set_option linter.unusedSimpArgs false
set_option linter.unusedSectionVars false

namespace Braft.Lease

/-- lease.h `LeaderLease`: fields _term, _lease_epoch, _last_active_timestamp,
_election_timeout_ms. -/
structure Leader where
  term : Nat
  epoch : Nat
  ts : Nat
  timeout : Nat
deriving DecidableEq, Repr

/-- lease.h `LeaderLease::InternalState`. -/
inductive LState where
  | disabled | expired | notReady | valid | suspect
deriving DecidableEq, Repr

/-- lease.cpp:31-36 -/
def Leader.onLeaderStart (l : Leader) (term : Nat) : Leader :=
  { l with epoch := l.epoch + 1, term := term, ts := 0 }

/-- lease.cpp:38-42 -/
def Leader.onLeaderStop (l : Leader) : Leader := { l with ts := 0, term := 0 }

/-- lease.cpp:44-50 -/
def Leader.onLeaseStart (l : Leader) (epoch ts : Nat) : Leader :=
  if l.term = 0 ∨ epoch ≠ l.epoch then l else { l with ts := ts }

/-- lease.cpp:52-55 -/
def Leader.renew (l : Leader) (ts : Nat) : Leader := { l with ts := ts }

/-- lease.cpp:57-82 `get_lease_info` -/
def Leader.info (enabled : Bool) (l : Leader) (now : Nat) : LState :=
  if !enabled then .disabled
  else if l.term = 0 then .expired
  else if l.ts = 0 then .notReady
  else if now < l.ts + l.timeout then .valid
  else .suspect

/-- lease.h `FollowerLease`; `lastLeader = none` is an empty PeerId. -/
structure Follower (N : Type) where
  lastLeader : Option N
  ts : Nat
  timeout : Nat
  drift : Nat
deriving DecidableEq, Repr

section
variable {N : Type}

/-- lease.cpp:94-100 `init`, on a new object (whose _last_leader is empty). -/
def Follower.init (timeout drift now : Nat) : Follower N := ⟨none, now, timeout, drift⟩

/-- lease.cpp:102-105 -/
def Follower.renew (f : Follower N) (leader : N) (now : Nat) : Follower N :=
  { f with lastLeader := some leader, ts := now }

/-- lease.cpp:111-123 `votable_time_from_now` -/
def Follower.votable (enabled : Bool) (f : Follower N) (now : Nat) : Nat :=
  if !enabled then 0
  else if f.ts + f.timeout + f.drift ≤ now then 0
  else f.ts + f.timeout + f.drift - now

/-- lease.cpp:129-132 -/
def Follower.expired (f : Follower N) (now : Nat) : Bool := decide (f.timeout + f.drift ≤ now - f.ts)

/-- lease.cpp:134-137 -/
def Follower.reset (f : Follower N) : Follower N := { f with lastLeader := none, ts := 0 }

/-- lease.cpp:139-141 -/
def Follower.expire (f : Follower N) : Follower N := { f with ts := 0 }

/-! ### The timestamp a lease is renewed with -/

/-- std::push_heap / std::pop_heap with the comparison `a > b` (node.cpp:3620-3624) keep a min-heap:
by their contract the next element popped is the smallest. The heap is modelled by its content in
ascending order. -/
def heapPush (t : Nat) : List Nat → List Nat
  | [] => [t]
  | x :: xs => if t ≤ x then t :: x :: xs else x :: heapPush t xs

/-- One iteration of the loop node.cpp:3631-3643, `k = peers.size() / 2`. -/
def keepTop (k : Nat) (heap : List Nat) (t : Nat) : List Nat :=
  let h := heapPush t heap
  if h.length > k then h.drop 1 else h

variable [DecidableEq N]

/-- node.cpp:3626-3652 `last_leader_active_timestamp(conf)`. `contact p` is
`_replicator_group.last_rpc_send_timestamp(p)`. -/
def lastActive1 (peers : List N) (self : N) (contact : N → Nat) (now : Nat) : Nat :=
  let heap := ((peers.filter (fun p => p ≠ self)).map contact).foldl (keepTop (peers.length / 2)) []
  match heap with
  | [] => now
  | t :: _ => t

/-- node.cpp:3611-3617 `last_leader_active_timestamp()`; `old = []` when the configuration is
stable. -/
def lastActive (peers old : List N) (self : N) (contact : N → Nat) (now : Nat) : Nat :=
  let t := lastActive1 peers self contact now
  if old ≠ [] then min t (lastActive1 old self contact now) else t

/-! ### Lemmas -/

theorem heapPush_length (t : Nat) (h : List Nat) : (heapPush t h).length = h.length + 1 := by
  induction h with
  | nil => rfl
  | cons x xs ih => simp only [heapPush]; split <;> simp [ih]

theorem heapPush_perm (t : Nat) (h : List Nat) : (heapPush t h).Perm (t :: h) := by
  induction h with
  | nil => exact List.Perm.refl _
  | cons x xs ih =>
    simp only [heapPush]
    split
    · exact List.Perm.refl _
    · exact (List.Perm.cons x ih).trans (List.Perm.swap t x xs)

theorem heapPush_sorted {t : Nat} {h : List Nat} (hs : h.Pairwise (· ≤ ·)) :
    (heapPush t h).Pairwise (· ≤ ·) := by
  induction h with
  | nil => simp [heapPush]
  | cons x xs ih =>
    rw [List.pairwise_cons] at hs
    simp only [heapPush]
    split
    · next hle =>
      rw [List.pairwise_cons, List.pairwise_cons]
      refine ⟨?_, hs.1, hs.2⟩
      intro y hy
      rcases List.mem_cons.mp hy with rfl | hy
      · exact hle
      · exact Nat.le_trans hle (hs.1 y hy)
    · next hle =>
      rw [List.pairwise_cons]
      refine ⟨?_, ih hs.2⟩
      intro y hy
      rcases List.mem_cons.mp ((heapPush_perm t xs).mem_iff.mp hy) with rfl | hy
      · omega
      · exact hs.1 y hy

/-- What the heap holds after the elements `l`: sorted, at most `k`, as many as possible, no value
counted more often than in `l`, and everything left out is at most everything kept. -/
structure HeapInv (k : Nat) (l heap : List Nat) : Prop where
  sorted : heap.Pairwise (· ≤ ·)
  len : heap.length = min l.length k
  ge : ∀ v, heap.countP (fun t => decide (v ≤ t)) ≤ l.countP (fun t => decide (v ≤ t))
  top : ∀ v, l.countP (fun t => decide (v ≤ t)) ≤ heap.countP (fun t => decide (v ≤ t)) ∨
    heap.countP (fun t => decide (v ≤ t)) = k

theorem heapInv_nil (k : Nat) : HeapInv k [] [] := by
  constructor <;> simp

theorem HeapInv.step {k : Nat} {l heap : List Nat} {t : Nat} (h : HeapInv k l heap) :
    HeapInv k (l ++ [t]) (keepTop k heap t) := by
  have hp := heapPush_perm t heap
  have hs := heapPush_sorted (t := t) h.sorted
  have hl := heapPush_length t heap
  have hc : ∀ v, (heapPush t heap).countP (fun t => decide (v ≤ t)) =
      heap.countP (fun t => decide (v ≤ t)) + if v ≤ t then 1 else 0 := by
    intro v
    rw [hp.countP_eq, List.countP_cons]
    simp
  have hcl : ∀ v, (l ++ [t]).countP (fun t => decide (v ≤ t)) =
      l.countP (fun t => decide (v ≤ t)) + if v ≤ t then 1 else 0 := by
    intro v
    rw [List.countP_append, List.countP_singleton]
    simp
  have hlen := h.len
  unfold keepTop
  simp only []
  by_cases hk : (heapPush t heap).length > k
  · rw [if_pos hk]
    obtain ⟨x, xs, hx⟩ : ∃ x xs, heapPush t heap = x :: xs := by
      cases hh : heapPush t heap with
      | nil => rw [hh] at hl; simp at hl
      | cons x xs => exact ⟨x, xs, rfl⟩
    rw [hx] at hs hl hk ⊢
    rw [List.pairwise_cons] at hs
    have hcx : ∀ v, (x :: xs).countP (fun t => decide (v ≤ t)) =
        xs.countP (fun t => decide (v ≤ t)) + if v ≤ x then 1 else 0 := by
      intro v; rw [List.countP_cons]; simp
    simp only [List.length_cons] at hl hk
    refine ⟨hs.2, ?_, ?_, ?_⟩
    · simp only [List.drop_succ_cons, List.drop_zero, List.length_append, List.length_singleton]
      omega
    · intro v
      have h1 := hc v; have h2 := hcl v; have h3 := hcx v; have h4 := h.ge v
      rw [hx] at h1
      simp only [List.drop_succ_cons, List.drop_zero]
      omega
    · intro v
      have h1 := hc v; have h2 := hcl v; have h3 := hcx v; have h4 := h.top v
      rw [hx] at h1
      simp only [List.drop_succ_cons, List.drop_zero]
      by_cases hvx : v ≤ x
      · -- everything in the heap is at least `v`
        right
        have hall : xs.countP (fun t => decide (v ≤ t)) = xs.length := by
          rw [List.countP_eq_length]
          intro y hy
          have := hs.1 y hy
          simp; omega
        rw [hall]; omega
      · rw [if_neg hvx] at h3
        rcases h4 with h4 | h4
        · left; omega
        · right
          have := List.countP_le_length (p := fun t => decide (v ≤ t)) (l := xs)
          omega
  · rw [if_neg hk]
    refine ⟨hs, ?_, ?_, ?_⟩
    · simp only [List.length_append, List.length_singleton]; omega
    · intro v; have := h.ge v; have := hc v; have := hcl v; omega
    · intro v
      have h1 := hc v; have h2 := hcl v
      rcases h.top v with h4 | h4
      · left; omega
      · have := List.countP_le_length (p := fun t => decide (v ≤ t)) (l := heap)
        omega

theorem heapInv_foldl {k : Nat} (l l0 heap : List Nat) (h : HeapInv k l0 heap) :
    HeapInv k (l0 ++ l) (l.foldl (keepTop k) heap) := by
  induction l generalizing l0 heap with
  | nil => simpa using h
  | cons t l ih =>
    have := ih (l0 ++ [t]) _ h.step
    simpa using this

/-- The result for one configuration: unless there is nobody but the leader, at least
`peers.length / 2` others were contacted at or after it; any later moment has fewer. -/
theorem lastActive1_spec (peers : List N) (self : N) (contact : N → Nat) (now : Nat)
    (hne : peers.length / 2 ≠ 0) (ho : peers.filter (fun p => p ≠ self) ≠ []) :
    let t := lastActive1 peers self contact now
    min (peers.filter (fun p => p ≠ self)).length (peers.length / 2) ≤
      (peers.filter (fun p => p ≠ self)).countP (fun p => decide (t ≤ contact p)) := by
  have h := heapInv_foldl ((peers.filter (fun p => p ≠ self)).map contact) [] []
    (heapInv_nil (peers.length / 2))
  rw [List.nil_append] at h
  unfold lastActive1
  simp only []
  generalize hh : ((peers.filter (fun p => p ≠ self)).map contact).foldl
    (keepTop (peers.length / 2)) [] = heap at h
  have hlen := h.len
  rw [List.length_map] at hlen
  cases heap with
  | nil =>
    simp only [List.length_nil] at hlen
    have : (peers.filter (fun p => p ≠ self)).length ≠ 0 := by simpa using ho
    omega
  | cons t ts =>
    simp only []
    have hs := h.sorted
    rw [List.pairwise_cons] at hs
    have h1 := h.ge t
    have h2 : (t :: ts).countP (fun x => decide (t ≤ x)) = (t :: ts).length := by
      rw [List.countP_eq_length]
      intro y hy
      rcases List.mem_cons.mp hy with rfl | hy
      · simp
      · simpa using hs.1 y hy
    rw [h2, hlen, List.countP_map] at h1
    exact h1

/-- No later moment has as many. -/
theorem lastActive1_latest (peers : List N) (self : N) (contact : N → Nat) (now v : Nat)
    (hlen : peers.length / 2 ≤ (peers.filter (fun p => p ≠ self)).length)
    (hne : peers.length / 2 ≠ 0)
    (hv : lastActive1 peers self contact now < v) :
    (peers.filter (fun p => p ≠ self)).countP (fun p => decide (v ≤ contact p)) <
      peers.length / 2 := by
  have h := heapInv_foldl ((peers.filter (fun p => p ≠ self)).map contact) [] []
    (heapInv_nil (peers.length / 2))
  rw [List.nil_append] at h
  unfold lastActive1 at hv
  simp only [] at hv
  generalize hh : ((peers.filter (fun p => p ≠ self)).map contact).foldl
    (keepTop (peers.length / 2)) [] = heap at h hv
  have hlen' := h.len
  rw [List.length_map] at hlen'
  cases heap with
  | nil => simp only [List.length_nil] at hlen'; omega
  | cons t ts =>
    simp only [] at hv
    have h1 : (t :: ts).countP (fun x => decide (v ≤ x)) < (t :: ts).length := by
      rw [List.countP_cons, if_neg (by simp; omega), List.length_cons]
      have := List.countP_le_length (p := fun x => decide (v ≤ x)) (l := ts)
      omega
    have h2 := h.top v
    rw [List.countP_map] at h2
    have h3 : (peers.filter (fun p => p ≠ self)).countP ((fun t => decide (v ≤ t)) ∘ contact) =
      (peers.filter (fun p => p ≠ self)).countP (fun p => decide (v ≤ contact p)) := rfl
    rw [h3] at h2
    omega

/-- Counting the leader and the others separately. -/
theorem countP_self (l : List N) (self : N) (P : N → Bool) :
    l.countP (fun p => decide (p = self) || P p) =
      l.count self + (l.filter (fun p => p ≠ self)).countP P := by
  induction l with
  | nil => rfl
  | cons a l ih =>
    rw [List.countP_cons, List.count_cons, ih]
    by_cases ha : a = self
    · subst ha; simp; omega
    · simp [ha, List.countP_cons]; omega

theorem filter_ne_length (l : List N) (self : N) :
    (l.filter (fun p => p ≠ self)).length + l.count self = l.length := by
  induction l with
  | nil => rfl
  | cons a l ih =>
    by_cases ha : a = self
    · subst ha; simp at ih ⊢; omega
    · simp [ha] at ih ⊢; omega

end
end Braft.Lease
