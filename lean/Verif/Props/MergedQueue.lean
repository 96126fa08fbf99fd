import Verif.Store.MergedQueue
import Verif.Store.Uri
/-!
# C92: the merged meta storage of many groups

`Merged.Reach B` ranges over every history of calls by any groups, of batches of up to `B` tasks cut at any place, of writes that
fail with or without effect, of deletions and of kills. A task is one call of set_term_and_votedfor (or the initial pair that
get_term_and_votedfor puts in); ids are in the order of the calls. `lastOk k ev` is the last task of k that was answered with
success since k was last deleted.
-/
set_option linter.unusedVariables false
namespace Braft.Props.MergedQueue
open Braft.Meta Braft.Merged
variable {K : Type} [DecidableEq K]

/-- C92. The record of a group is never older than the last pair that was reported as stored: it is that pair, or one of the
same group put in later. -/
theorem C92_not_older {B : Nat} {s : State K} (h : Reach B s) (k : K) (t : Merged.Task K) (hl : lastOk k s.ev = some t) :
    t ∈ s.subs ∧ t.key = k ∧ ∃ u ∈ s.subs, u.key = k ∧ s.db k = some u.val ∧ t.id ≤ u.id := by
  obtain ⟨a, b, _, u, d, e, f, g, _⟩ := (inv h).last k t hl
  exact ⟨a, b, u, d, e, f, g⟩

theorem unique {s : State K} (h : Inv s) {t u : Merged.Task K} (ht : t ∈ s.subs) (hu : u ∈ s.subs) (e : t.id = u.id) : t = u := by
  obtain ⟨i, hi, rfl⟩ := List.getElem_of_mem ht
  obtain ⟨j, hj, rfl⟩ := List.getElem_of_mem hu
  have p := List.pairwise_iff_getElem.mp h.subs
  rcases Nat.lt_trichotomy i j with l | l | l
  · have := p i j hi hj l; omega
  · subst l; rfl
  · have := p j i hj hi l; omega

/-- C92. What a group that waits for each answer relies on: after a success, until the group's next call, the record is exactly
that pair, whatever other groups do, whichever writes fail and however often the process is killed. -/
theorem C92_stored {B : Nat} {s : State K} (h : Reach B s) (k : K) (t : Merged.Task K) (hl : lastOk k s.ev = some t)
    (hlast : ∀ u ∈ s.subs, u.key = k → u.id ≤ t.id) : s.db k = some t.val := by
  obtain ⟨a, b, u, d, e, f, g⟩ := C92_not_older h k t hl
  have := unique (inv h) a d (by have := hlast u d e; omega)
  subst this; exact f

/-- C92. Groups do not mix: a record is a pair some call for that very group put in. -/
theorem C92_own {B : Nat} {s : State K} (h : Reach B s) (k : K) (v : Pair) (hd : s.db k = some v) :
    ∃ t ∈ s.subs, t.key = k ∧ t.val = v := by
  obtain ⟨t, a, b, c, _⟩ := (inv h).from' k v hd
  exact ⟨t, a, b, c⟩

/-- C92. Each call is answered at most once, in the order of the calls; and without a kill every call is answered, is in the
batch, or waits in the queue. -/
theorem C92_answers {B : Nat} {s : State K} (h : Reach B s) :
    (answered s.ev).Pairwise (fun a b => a.id < b.id) ∧ (∀ t ∈ answered s.ev, t ∈ s.subs) ∧
    (s.crashes = 0 → s.subs = answered s.ev ++ s.cur ++ s.queue) := by
  have hi := inv h
  exact ⟨(List.pairwise_append.mp (List.pairwise_append.mp hi.ans).1).1, hi.ansIn, hi.all⟩

/-- C92. One write serves at most `B` calls, and all of them get its result. -/
theorem C92_batch {B : Nat} {s : State K} (h : Reach B s) : s.cur.length ≤ B ∧
    ∀ w s', step B s (.flush w) = some s' →
      s'.ev = (s.cur.map (fun t => Ev.ans t (decide (w = .ok)))).reverse ++ s.ev := by
  refine ⟨?_, ?_⟩
  · induction h with
    | init => exact Nat.zero_le _
    | @step s s' a _ hs ih =>
      cases a with
      | set k v => cases hs; exact ih
      | get k =>
        unfold step at hs; dsimp only at hs
        cases hd : s.db k with
        | some x => rw [hd] at hs; cases hs; exact ih
        | none => rw [hd] at hs; cases hs; exact ih
      | take =>
        unfold step at hs; dsimp only at hs
        cases hq : s.queue with
        | nil => rw [hq] at hs; cases hs
        | cons t q =>
          rw [hq] at hs; dsimp only at hs
          split at hs
          · rename_i hl; cases hs; simp; omega
          · cases hs
      | flush w =>
        unfold step at hs; dsimp only at hs
        split at hs
        · cases hs
        · cases hs; exact Nat.zero_le _
      | delete k w => unfold step at hs; dsimp only at hs; cases w <;> (cases hs; exact ih)
      | kill => cases hs; exact Nat.zero_le _
      | killIn w => cases hs; exact Nat.zero_le _
  · intro w s' hs
    unfold step at hs; dsimp only at hs
    split at hs
    · cases hs
    · cases hs; rfl

/-- C92. As long as something waits and `B` is positive the consumer can go on, so no call is left without an answer. -/
theorem C92_progress {B : Nat} (hB : 0 < B) (s : State K) (h : s.cur ≠ [] ∨ s.queue ≠ []) :
    (∃ s', step B s (.flush .ok) = some s' ∧ s'.cur = [] ∧ s'.queue = s.queue) ∨
    (∃ s', step B s .take = some s' ∧ s'.queue.length < s.queue.length) := by
  by_cases hc : s.cur = []
  · right
    cases hq : s.queue with
    | nil => rcases h with h | h
             · exact absurd hc h
             · exact absurd hq h
    | cons t q =>
      unfold step; dsimp only; rw [hq]; dsimp only
      rw [if_pos (by rw [hc]; exact hB)]
      exact ⟨_, rfl, by simp⟩
  · left
    unfold step; dsimp only
    rw [if_neg hc]
    exact ⟨_, rfl, rfl, rfl⟩

/-- Actions one after another. -/
def go (B : Nat) (s : State K) : List (Act K) → Option (State K)
  | [] => some s
  | a :: l => match step B s a with | some t => go B t l | none => none

theorem go_reach {B : Nat} {s s' : State K} (h : Reach B s) (l : List (Act K)) (hg : go B s l = some s') : Reach B s' := by
  induction l generalizing s with
  | nil => cases hg; exact h
  | cons a l ih =>
    unfold go at hg
    cases hs : step B s a with
    | none => rw [hs] at hg; cases hg
    | some t => rw [hs] at hg; exact ih (.step a h hs) hg

/-- C92. get_term_and_votedfor of a group that has a record changes nothing; a group without one gets term 1 and no vote put in. -/
theorem C92_get (B : Nat) (s : State K) (k : K) :
    (∀ v, s.db k = some v → step B s (.get k) = some s) ∧
    (s.db k = none → step B s (.get k) = step B s (.set k ⟨1, {}⟩)) := by
  refine ⟨?_, ?_⟩
  · intro v h; unfold step; dsimp only; rw [h]
  · intro h; unfold step; dsimp only; rw [h]; rfl

private def v5 : Pair := ⟨5, { ip := 1, port := 80, idx := 0 }⟩
private def v6 : Pair := ⟨6, {}⟩

private def actsLost : List (Act Nat) := [.set 7 v5, .get 7, .take, .take, .flush .ok]

/-- VIOLATED: "get_term_and_votedfor only reads": a get of a group that has no record yet, while a set of the group is on its
way, puts the initial pair over the one that is reported as stored. (A node makes its calls one after the other; two users of one
key do not.) -/
theorem C92_get_overwrites : ∃ s : State Nat, Reach 128 s ∧ (⟨0, 7, v5⟩ : Merged.Task Nat) ∈ answered s.ev ∧
    Ev.ans (⟨0, 7, v5⟩ : Merged.Task Nat) true ∈ s.ev ∧ s.db 7 = some ⟨1, {}⟩ := by
  have h : ∃ s, go 128 State.init actsLost = some s ∧ (⟨0, 7, v5⟩ : Merged.Task Nat) ∈ answered s.ev ∧
      Ev.ans (⟨0, 7, v5⟩ : Merged.Task Nat) true ∈ s.ev ∧ s.db 7 = some ⟨1, {}⟩ := ⟨_, rfl, by decide, by decide, by decide⟩
  obtain ⟨s, hg, h1, h2, h3⟩ := h
  exact ⟨s, go_reach .init _ hg, h1, h2, h3⟩

private def actsKept : List (Act Nat) := [.set 7 v5, .take, .flush .kept]

/-- VIOLATED: "a set that is reported as failed did not happen": the record may be the one of the failed call. -/
theorem C92_failed_but_stored : ∃ s : State Nat, Reach 128 s ∧ s.ev = [.ans ⟨0, 7, v5⟩ false] ∧ s.db 7 = some v5 := by
  have h : ∃ s, go 128 State.init actsKept = some s ∧ s.ev = [.ans ⟨0, 7, v5⟩ false] ∧ s.db 7 = some v5 :=
    ⟨_, rfl, by decide, by decide⟩
  obtain ⟨s, hg, h1, h2⟩ := h
  exact ⟨s, go_reach .init _ hg, h1, h2⟩

/-- VIOLATED: "a record belongs to one node": the key is made of the group and the index, not of the address, so two peers of a
group with one index share a record if they share the storage: after one of them stored a vote the other one reads it. -/
theorem C92_shared_key (g : List Char) : ∃ p q : PeerId, PeerId.eqv p q = false ∧ Uri.vgid g p.idx = Uri.vgid g q.idx :=
  ⟨{ ip := 1, port := 80, idx := 0 }, { ip := 1, port := 81, idx := 0 }, by decide, rfl⟩

/-! ## The hypotheses are met -/

private def acts0 : List (Act Nat) :=
  [.get 7, .get 8, .take, .take, .flush .ok, .set 7 v5, .set 8 v6, .take, .flush .ok, .take, .flush .lost, .set 8 v6, .kill]

example : ∃ s : State Nat, go 128 .init acts0 = some s ∧ Reach 128 s ∧ lastOk 7 s.ev = some ⟨2, 7, v5⟩ ∧
    (∀ u ∈ s.subs, u.key = 7 → u.id ≤ 2) ∧ s.db 7 = some v5 ∧ s.db 8 = some ⟨1, {}⟩ ∧ (answered s.ev).length = 4 ∧ s.crashes = 1 :=
  ⟨_, rfl, go_reach .init acts0 rfl, by decide, by decide, by decide, by decide, by decide, by decide⟩
example : go 2 (State.init : State Nat) [.get 7, .get 8, .get 9, .take, .take, .take] = none := rfl
example : ∃ s : State Nat, go 2 State.init [.get 7, .get 8, .get 9, .take, .take] = some s ∧ (s.cur ≠ [] ∨ s.queue ≠ []) ∧
    s.crashes = 0 ∧ s.cur.length = 2 := ⟨_, rfl, by decide, by decide, by decide⟩

end Braft.Props.MergedQueue
