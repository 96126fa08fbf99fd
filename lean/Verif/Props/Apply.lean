import Verif.Apply
/-!
Property C40: `apply()` is refused by anything that is not a writable leader.

`Apply.applyBatch n ts` is one pass of the node over a batch of queued tasks: the node afterwards
and the closures it ran, each with its error. `Apply.Accepts term t`: the task's expected_term is
-1 or `term`.
-/
set_option linter.unusedVariables false
set_option linter.unusedSectionVars false
namespace Braft.Props
open Braft Braft.Apply Braft.Readonly
universe u v w
variable {P : Type w} [DecidableEq P] {D : Type u} {C : Type v}

/-- C40. A node that is not leader, or is readonly (by itself or by majority), appends nothing,
changes nothing and runs every closure of the batch exactly once, in order: with EREADONLY on a
readonly leader, EBUSY while transferring leadership, EPERM otherwise. -/
theorem C40_refused (n : Node P D C) (ts : List (Task D C))
    (h : n.role ≠ .leader ∨ n.nodeRo = true ∨ n.majRo = true) :
    (applyBatch n ts).1 = n ∧
    ((applyBatch n ts).2).map Prod.fst = ts.filterMap (·.done) ∧
    ∀ x ∈ (applyBatch n ts).2,
      (n.role = .leader → x.2 = .ereadonly) ∧ (n.role = .transferring → x.2 = .ebusy) ∧
      (n.role = .other → x.2 = .eperm) := by
  have h' : n.role ≠ .leader ∨ (n.nodeRo || n.majRo) = true := by
    rcases h with h | h | h
    · exact Or.inl h
    · exact Or.inr (by simp [h])
    · exact Or.inr (by simp [h])
  unfold applyBatch
  simp only [if_pos h']
  refine ⟨trivial, ?_, ?_⟩
  · rw [List.map_filterMap]
    congr 1; funext t; cases t.done <;> rfl
  · intro x hx
    rw [List.mem_filterMap] at hx
    obtain ⟨t, _, ht⟩ := hx
    cases hd : t.done with
    | none => rw [hd] at ht; simp at ht
    | some c =>
      rw [hd] at ht
      simp only [Option.map_some, Option.some.injEq] at ht
      subst ht
      refine ⟨fun hr => ?_, fun hr => ?_, fun hr => ?_⟩
      · have hb : (n.nodeRo || n.majRo) = true := by
          rcases h' with h' | h'
          · exact absurd hr h'
          · exact h'
        simp [hr, hb]
      · simp [hr]
      · simp [hr]

/-- C40. On a writable leader with a healthy log, the tasks with a matching expected_term are
appended in order, with consecutive indexes right after the last one and the current term; the
others are not appended and their closures run once with EPERM. -/
theorem C40_accepted (n : Node P D C) (ts : List (Task D C)) (hl : n.role = .leader)
    (h1 : n.nodeRo = false) (h2 : n.majRo = false) (he : n.logErr = false) :
    let acc := ts.filter (fun t => decide (t.expected = -1 ∨ t.expected = (n.term : Int)))
    let n' := (applyBatch n ts).1
    (∃ es, n'.log = n.log ++ es ∧ es.length = acc.length ∧
      ∀ i (hi : i < acc.length), es[i]? = some ⟨n.lastIndex + 1 + i, n.term, acc[i].data⟩) ∧
    n'.lastIndex = n.lastIndex + acc.length ∧
    n'.bb.closures.queue = n.bb.closures.queue ++ acc.map (·.done) ∧
    (applyBatch n ts).2 = (ts.filter
      (fun t => !decide (t.expected = -1 ∨ t.expected = (n.term : Int)))).filterMap
        (fun t => t.done.map (fun c => (c, Err.eperm))) := by
  intro acc n'
  obtain ⟨_, h⟩ := applyBatch_spec n ts
  obtain ⟨a1, a2, a3, a4, a5, a6⟩ := h ⟨hl, by simp [h1, h2]⟩
  obtain ⟨b1, b2⟩ := a6 he
  have hacc : ts.filter (Accepts n.term) = acc := rfl
  rw [hacc] at b1
  refine ⟨⟨_, b1, ?_, ?_⟩, b2, a2, a1⟩
  · rw [assign_length, List.length_map]
  · intro i hi
    rw [assign_get _ _ _ i (by rw [List.length_map]; exact hi)]
    simp only [List.getElem_map]

example : ∃ n : Node Nat String Nat, n.role = .leader ∧ n.nodeRo = false ∧ n.majRo = false ∧
    n.logErr = false ∧
    (applyBatch n [⟨"a", some 1, -1⟩, ⟨"b", some 2, 4⟩, ⟨"c", none, 5⟩]).1.log =
      [⟨8, 5, "a"⟩, ⟨9, 5, "c"⟩] ∧
    (applyBatch n [⟨"a", some 1, -1⟩, ⟨"b", some 2, 4⟩, ⟨"c", none, 5⟩]).2 = [(2, .eperm)] :=
  ⟨⟨.leader, 5, false, false, [1, 2, 3], [], false, 7, [], {}⟩, by decide, by decide, by decide,
    by decide, by decide, by decide⟩

/-- C40/C12. The closure and the ballot a leader registers for a task sit at the index of its own
entry, if the ballot box and the log were level before (as they are after `become_leader`). -/
theorem C40_closure_index (n : Node P D C) (ts : List (Task D C)) (hl : n.role = .leader)
    (h1 : n.nodeRo = false) (h2 : n.majRo = false) (he : n.logErr = false)
    (hc : n.bb.closures.first + n.bb.closures.queue.length = n.lastIndex + 1)
    (hb : n.bb.pending + n.bb.queue.length = n.lastIndex + 1) (i : Nat) :
    let acc := ts.filter (fun t => decide (t.expected = -1 ∨ t.expected = (n.term : Int)))
    let n' := (applyBatch n ts).1
    (n'.bb.closures.first + n'.bb.closures.queue.length = n'.lastIndex + 1) ∧
    (n'.bb.pending + n'.bb.queue.length = n'.lastIndex + 1) ∧
    ∀ (hi : i < acc.length),
      n'.bb.closures.queue[n.lastIndex + 1 + i - n'.bb.closures.first]? = some acc[i].done ∧
      n'.bb.queue[n.lastIndex + 1 + i - n'.bb.pending]? =
        some (Ballot.init n.conf (if n.old.isEmpty then none else some n.old)) ∧
      n'.log[n.log.length + i]? = some ⟨n.lastIndex + 1 + i, n.term, acc[i].data⟩ := by
  intro acc n'
  obtain ⟨_, h⟩ := applyBatch_spec n ts
  obtain ⟨a1, a2, a3, a4, a5, a6⟩ := h ⟨hl, by simp [h1, h2]⟩
  obtain ⟨b1, b2⟩ := a6 he
  have hacc : ts.filter (Accepts n.term) = acc := rfl
  rw [hacc] at a2 a5 b1 b2
  refine ⟨?_, ?_, ?_⟩
  · rw [a3, a2, b2]; simp; omega
  · rw [a4, a5, b2]; simp; omega
  · intro hi
    refine ⟨?_, ?_, ?_⟩
    · rw [a3, a2]
      have : n.lastIndex + 1 + i - n.bb.closures.first = n.bb.closures.queue.length + i := by omega
      rw [this, List.getElem?_append_right (by omega)]
      have : n.bb.closures.queue.length + i - n.bb.closures.queue.length = i := by omega
      rw [this]; simp [hi]
    · rw [a4, a5]
      have : n.lastIndex + 1 + i - n.bb.pending = n.bb.queue.length + i := by omega
      rw [this, List.getElem?_append_right (by omega)]
      have : n.bb.queue.length + i - n.bb.queue.length = i := by omega
      rw [this]; simp [hi]
    · rw [b1, List.getElem?_append_right (by omega)]
      have : n.log.length + i - n.log.length = i := by omega
      rw [this, assign_get _ _ _ i (by rw [List.length_map]; exact hi)]
      simp

example : ∃ n : Node Nat String Nat, n.role = .leader ∧
    n.bb.closures.first + n.bb.closures.queue.length = n.lastIndex + 1 ∧
    n.bb.pending + n.bb.queue.length = n.lastIndex + 1 ∧ n.bb.pending ≠ 0 :=
  ⟨⟨.leader, 5, false, false, [1, 2, 3], [], false, 7, [],
    { pending := 8, closures := { first := 8, queue := [] } }⟩, by decide⟩

/-- C40 (whole queue). However the execution queue cuts the tasks into batches of at most
`raft_apply_batch`, and whatever other threads do to the node between two batches, every closure
is either failed exactly once or handed exactly once to the pending queue (counted with
multiplicity, for any set `p` of closures). -/
theorem C40_each_closure_once [DecidableEq C] (env : Nat → Node P D C → Node P D C) (size : Nat)
    (ts : List (Task D C)) (n : Node P D C) (p : C → Bool) :
    let r := runBatches env 0 n (batches size size [] ts)
    ((r.2.1).map Prod.fst).countP p + (r.2.2.filterMap id).countP p =
      (ts.filterMap (·.done)).countP p := by
  intro r
  have key : ∀ (bs : List (List (Task D C))) (i : Nat) (n : Node P D C),
      (((runBatches env i n bs).2.1).map Prod.fst).countP p +
        ((runBatches env i n bs).2.2.filterMap id).countP p =
      (bs.flatten.filterMap (·.done)).countP p := by
    intro bs
    induction bs with
    | nil => intro i n; rfl
    | cons b bs ih =>
      intro i n
      simp only [runBatches, List.flatten_cons, List.filterMap_append, List.countP_append,
        List.map_append]
      have := ih (i + 1) (applyBatch (env i n) b).1
      have hb : (((applyBatch (env i n) b).2).map Prod.fst).countP p +
          (((applyBatch (env i n) b).1.bb.closures.queue.drop
            (env i n).bb.closures.queue.length).filterMap id).countP p =
          (b.filterMap (·.done)).countP p := by
        obtain ⟨g1, g2⟩ := applyBatch_spec (env i n) b
        by_cases hr : (env i n).role = .leader ∧ ((env i n).nodeRo || (env i n).majRo) = false
        · obtain ⟨a1, a2, _⟩ := g2 hr
          rw [a1, a2, List.drop_left]
          exact count_split (Accepts (env i n).term) b p .eperm
        · have : (env i n).role ≠ .leader ∨ ((env i n).nodeRo || (env i n).majRo) = true ∧ True := by
            by_cases hx : (env i n).role = .leader
            · right
              refine ⟨?_, trivial⟩
              cases hy : ((env i n).nodeRo || (env i n).majRo) with
              | true => rfl
              | false => exact absurd ⟨hx, hy⟩ hr
            · exact Or.inl hx
          obtain ⟨e1, e, e2⟩ := g1 this
          rw [e1, e2, List.map_filterMap]
          have hd : (env i n).bb.closures.queue.drop (env i n).bb.closures.queue.length = [] :=
            List.drop_length
          rw [hd]
          have : (fun x => Option.map Prod.fst (Option.map (fun c => (c, e)) x.done)) =
            (fun t : Task D C => t.done) := by funext t; cases t.done <;> rfl
          rw [this]; rfl
      rw [Nat.add_add_add_comm, hb, this]
  have hk := key (batches size size [] ts) 0 n
  rw [batches_flatten] at hk
  simpa using hk

/-- The batches never exceed the flag and lose nothing. -/
theorem C40_batches (size : Nat) (hs : 0 < size) (ts : List (Task D C)) :
    (batches size size [] ts).flatten = ts ∧ ∀ b ∈ batches size size [] ts, b.length ≤ size :=
  ⟨by simpa using batches_flatten size ts [] size, batches_bound size hs ts [] size (by simp)⟩

example : (batches 2 2 [] [(⟨"a", some 1, -1⟩ : Task String Nat), ⟨"b", some 2, -1⟩,
    ⟨"c", none, -1⟩]).map List.length = [2, 1] := by decide

/-- C40 (node shut down). On a stopped queue a task with a closure fails it once and appends
nothing. -/
theorem C40_stopped (t : Task D C) (c : C) (h : t.done = some c) : submit true t = .failed c := by
  simp [submit, h]

example : (⟨"x", some 3, -1⟩ : Task String Nat).done = some 3 := rfl

/-- Finding: a task without closure submitted after shutdown dereferences a null pointer. -/
theorem C40_stopped_without_closure (d : D) (e : Int) :
    submit true (⟨d, none, e⟩ : Task D C) = .nullDeref := rfl

end Braft.Props
