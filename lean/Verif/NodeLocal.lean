/-
Two small pieces of NodeImpl:
* node.cpp:2679-2712 `read_committed_user_log`;
* node.cpp:293-345 `init_meta_storage` (the term check of a restart).
-/
set_option linter.unusedVariables false
set_option linter.unusedSimpArgs false

namespace Braft.NodeLocal
universe u

/-- enum.proto EntryType as far as this code distinguishes it. -/
inductive Kind | data | config | noop
deriving DecidableEq, Repr

/-- log_entry.h LogEntry: type and data. -/
structure Entry (D : Type u) where
  kind : Kind
  data : D
deriving DecidableEq, Repr

/-- Outcome of `read_committed_user_log`. -/
inductive ReadResult (D : Type u)
  | ok (index : Nat) (data : D) | einval | noMore | deleted (index : Nat)
deriving DecidableEq, Repr

variable {D : Type u}

/-- node.cpp:2693-2709, the loop. `get k i` is what `LogManager::get_entry(i)` returns at its
`k`-th call: other threads may append or compact in between. `fuel` bounds the number of entries
up to the applied index and never runs out. -/
def readLoop (get : Nat → Nat → Option (Entry D)) (applied : Nat) :
    (fuel k cur : Nat) → Entry D → ReadResult D
  | fuel, k, cur, e =>
    if e.kind = .data then .ok cur e.data
    else if cur + 1 > applied then .noMore
    else match get (k + 1) (cur + 1) with
      | none => .deleted (cur + 1)
      | some e' => match fuel with
        | 0 => .noMore
        | fuel + 1 => readLoop get applied fuel (k + 1) (cur + 1) e'

/-- node.cpp:2679-2712 `read_committed_user_log`; `applied` is the value of
`last_applied_index()` read at line 2683. -/
def readCommitted (get : Nat → Nat → Option (Entry D)) (applied : Nat) (index : Int) : ReadResult D :=
  if index ≤ 0 then .einval
  else if index > (applied : Int) then .noMore
  else match get 0 index.toNat with
    | none => .deleted index.toNat
    | some e => readLoop get applied (applied - index.toNat) 0 index.toNat e

theorem readLoop_spec (get : Nat → Nat → Option (Entry D)) (applied fuel k cur : Nat) (e : Entry D)
    (hf : fuel = applied - cur) (hc : cur ≤ applied) (hg : get k cur = some e) :
    match readLoop get applied fuel k cur e with
    | .ok i d => cur ≤ i ∧ i ≤ applied ∧ get (k + (i - cur)) i = some ⟨.data, d⟩ ∧
        ∀ j, cur ≤ j → j < i → ∃ x, get (k + (j - cur)) j = some x ∧ x.kind ≠ .data
    | .noMore => ∀ j, cur ≤ j → j ≤ applied → ∃ x, get (k + (j - cur)) j = some x ∧ x.kind ≠ .data
    | .deleted i => cur < i ∧ i ≤ applied ∧ get (k + (i - cur)) i = none ∧
        ∀ j, cur ≤ j → j < i → ∃ x, get (k + (j - cur)) j = some x ∧ x.kind ≠ .data
    | .einval => False := by
  induction fuel generalizing k cur e with
  | zero =>
    have he : cur = applied := by omega
    subst he
    unfold readLoop
    by_cases hk : e.kind = .data
    · simp only [hk, if_true]
      refine ⟨Nat.le_refl _, Nat.le_refl _, ?_, fun j h1 h2 => by omega⟩
      simp only [Nat.sub_self, Nat.add_zero, hg]
      cases e; simp_all
    · have hgt : cur + 1 > cur := by omega
      simp only [hk, if_false, if_pos hgt]
      intro j h1 h2
      have : j = cur := by omega
      subst this
      exact ⟨e, by simpa using hg, hk⟩
  | succ f ih =>
    unfold readLoop
    by_cases hk : e.kind = .data
    · simp only [hk, if_true]
      refine ⟨Nat.le_refl _, hc, ?_, fun j h1 h2 => by omega⟩
      simp only [Nat.sub_self, Nat.add_zero, hg]
      cases e; simp_all
    · have hle : ¬ cur + 1 > applied := by omega
      simp only [hk, if_false, if_neg hle]
      cases hn : get (k + 1) (cur + 1) with
      | none =>
        simp only
        refine ⟨by omega, by omega, ?_, ?_⟩
        · have : k + (cur + 1 - cur) = k + 1 := by omega
          rw [this]; exact hn
        · intro j h1 h2
          have : j = cur := by omega
          subst this
          exact ⟨e, by simpa using hg, hk⟩
      | some e' =>
        simp only
        have h := ih (k + 1) (cur + 1) e' (by omega) (by omega) hn
        have shift : ∀ j, cur + 1 ≤ j → k + 1 + (j - (cur + 1)) = k + (j - cur) := by
          intro j hj; omega
        have first : ∀ j, j = cur → ∃ x, get (k + (j - cur)) j = some x ∧ x.kind ≠ .data := by
          intro j hj; subst hj; exact ⟨e, by simpa using hg, hk⟩
        generalize readLoop get applied f (k + 1) (cur + 1) e' = r at h
        cases r with
        | ok i d =>
          simp only at h ⊢
          obtain ⟨h1, h2, h3, h4⟩ := h
          refine ⟨by omega, h2, by rw [← shift i h1]; exact h3, ?_⟩
          intro j hj1 hj2
          by_cases hjc : j = cur
          · exact first j hjc
          · have := h4 j (by omega) hj2
            rw [shift j (by omega)] at this; exact this
        | einval => exact h
        | noMore =>
          simp only at h ⊢
          intro j hj1 hj2
          by_cases hjc : j = cur
          · exact first j hjc
          · have := h j (by omega) hj2
            rw [shift j (by omega)] at this; exact this
        | deleted i =>
          simp only at h ⊢
          obtain ⟨h1, h2, h3, h4⟩ := h
          refine ⟨by omega, h2, by rw [← shift i (by omega)]; exact h3, ?_⟩
          intro j hj1 hj2
          by_cases hjc : j = cur
          · exact first j hjc
          · have := h4 j (by omega) hj2
            rw [shift j (by omega)] at this; exact this

/-! ### Restart -/

/-- What a node has after `init_meta_storage`: term, vote, and the pair in the meta storage. -/
structure Started (P : Type u) where
  term : Nat
  vote : Option P
  storedTerm : Nat
  storedVote : Option P
deriving DecidableEq, Repr

variable {P : Type u}

/-- node.cpp:293-345 `init_meta_storage`, after the storage is created and initialised. `stored` is
what `get_term_and_votedfor` returns (none: it failed), `lastTerm` the term of
`_log_manager->last_log_id()`, `setOk` whether `set_term_and_votedfor` succeeds.
`none`: the node refuses to start. -/
def initMeta (stored : Option (Nat × Option P)) (lastTerm : Nat) (setOk : Bool) : Option (Started P) :=
  match stored with
  | none => none
  | some (t, v) =>
    if t < lastTerm then
      if setOk then some ⟨lastTerm + 1, none, lastTerm + 1, none⟩ else none
    else some ⟨t, v, t, v⟩

end Braft.NodeLocal
