import Verif.ConfManager
/-!
# C15: Configuration lookup returns the configuration in force

Specification: the history of operations determines a set of live entries (`Live`), by simple
filtering, and the configuration in force at an index is characterised by `InForce`.
-/
set_option linter.unusedVariables false
namespace Braft.Props
open Braft
variable {V : Type}

inductive CMOp (V : Type)
  | add (e : ConfEntry V) | truncatePrefix (k : Nat) | truncateSuffix (k : Nat)
  | setSnapshot (e : ConfEntry V)

/-- Running the model. A refused `add` (returns -1) leaves the manager as it was. -/
def CMOp.run (m : ConfManager V) : CMOp V → ConfManager V
  | .add e => (m.add e).getD m
  | .truncatePrefix k => m.truncatePrefix k
  | .truncateSuffix k => m.truncateSuffix k
  | .setSnapshot e => m.setSnapshot e

/-- Specification state: live entries in the order they were added, and the snapshot's entry. -/
structure CMSpec (V : Type) where
  live : List (ConfEntry V)
  snap : ConfEntry V

def CMSpec.run (s : CMSpec V) : CMOp V → CMSpec V
  | .add e => if s.live.all (fun x => decide (x.index < e.index)) then { s with live := s.live ++ [e] } else s
  | .truncatePrefix k => { s with live := s.live.filter (fun x => decide (k ≤ x.index)) }
  | .truncateSuffix k => { s with live := s.live.filter (fun x => decide (x.index ≤ k)) }
  | .setSnapshot e => { s with snap := e }

/-- `e` is the configuration in force at index `i`: the live entry with the greatest index at or
below `i`, or the snapshot's when there is none. -/
def InForce (s : CMSpec V) (i : Nat) (e : ConfEntry V) : Prop :=
  (e ∈ s.live ∧ e.index ≤ i ∧ ∀ x ∈ s.live, x.index ≤ i → x.index ≤ e.index) ∨
  ((∀ x ∈ s.live, ¬ x.index ≤ i) ∧ e = s.snap)

theorem cm_refines (ops : List (CMOp V)) (m : ConfManager V) (s : CMSpec V) (hi : m.Inv)
    (h : m.configurations = s.live ∧ m.snapshot = s.snap) :
    (ops.foldl CMOp.run m).Inv ∧ (ops.foldl CMOp.run m).configurations = (ops.foldl CMSpec.run s).live ∧
    (ops.foldl CMOp.run m).snapshot = (ops.foldl CMSpec.run s).snap := by
  induction ops generalizing m s with
  | nil => exact ⟨hi, h⟩
  | cons op ops ih =>
    simp only [List.foldl_cons]
    apply ih
    · cases op with
      | add e =>
        simp only [CMOp.run]
        cases ha : m.add e with
        | none => exact hi
        | some m' => exact ConfManager.inv_add hi ha
      | truncatePrefix k => exact ConfManager.inv_truncatePrefix hi
      | truncateSuffix k => exact ConfManager.inv_truncateSuffix hi
      | setSnapshot e => exact hi
    · cases op with
      | add e =>
        simp only [CMOp.run, CMSpec.run]
        have hiff := ConfManager.add_isSome_iff (e := e) hi
        cases ha : m.add e with
        | none =>
          have : ¬ (s.live.all (fun x => decide (x.index < e.index))) = true := by
            intro hall
            obtain ⟨m', hm'⟩ := hiff.mpr (by rw [h.1]; simpa using hall)
            rw [ha] at hm'; cases hm'
          rw [if_neg this]; exact h
        | some m' =>
          have : (s.live.all (fun x => decide (x.index < e.index))) = true := by
            have := hiff.mp ⟨m', ha⟩
            rw [h.1] at this; simpa using this
          rw [if_pos this]
          obtain ⟨h1, h2⟩ := ConfManager.add_configurations ha
          simp [h1, h2, h]
      | truncatePrefix k =>
        refine ⟨?_, h.2⟩
        simp only [CMOp.run, CMSpec.run, ConfManager.truncatePrefix]
        rw [ConfManager.popFrontWhile_eq_filter k _ hi, h.1]
      | truncateSuffix k =>
        refine ⟨?_, h.2⟩
        simp only [CMOp.run, CMSpec.run]
        rw [ConfManager.truncateSuffix_eq_filter m k hi, h.1]
      | setSnapshot e => exact ⟨h.1, rfl⟩

theorem getLast_filter_max {l : List (ConfEntry V)} {i : Nat} {e}
    (hp : l.Pairwise (fun a b => a.index < b.index))
    (h : (l.filter (fun e => decide (e.index ≤ i))).getLast? = some e) :
    e ∈ l ∧ e.index ≤ i ∧ ∀ x ∈ l, x.index ≤ i → x.index ≤ e.index := by
  obtain ⟨init, hinit⟩ := List.getLast?_eq_some_iff.mp h
  have hm : e ∈ l.filter (fun e => decide (e.index ≤ i)) := by rw [hinit]; simp
  rw [List.mem_filter] at hm
  refine ⟨hm.1, by simpa using hm.2, fun x hx hxi => ?_⟩
  have hxm : x ∈ l.filter (fun e => decide (e.index ≤ i)) := by
    rw [List.mem_filter]; exact ⟨hx, by simpa using hxi⟩
  have hp' := hp.filter (fun e => decide (e.index ≤ i))
  rw [hinit] at hxm hp'
  rcases List.mem_append.mp hxm with hx | hx
  · have := (List.pairwise_append.mp hp').2.2 x hx e (by simp); omega
  · simp at hx; subst hx; omega

/-- C15. After any sequence of operations, `get(i)` is the configuration in force at `i`. -/
theorem C15_get (s0 : ConfEntry V) (ops : List (CMOp V)) (i : Nat) :
    InForce (ops.foldl CMSpec.run ⟨[], s0⟩) i ((ops.foldl CMOp.run ⟨[], s0⟩).get i) := by
  obtain ⟨hi, h1, h2⟩ := cm_refines ops ⟨[], s0⟩ ⟨[], s0⟩ (by simp [ConfManager.Inv]) ⟨rfl, rfl⟩
  rw [ConfManager.get_eq _ _ hi]
  unfold ConfManager.Inv at hi
  rw [h1] at hi ⊢
  rw [h2]
  cases hg : (List.filter (fun e => decide (e.index ≤ i)) (ops.foldl CMSpec.run ⟨[], s0⟩).live).getLast? with
  | some e => exact .inl (getLast_filter_max hi hg)
  | none =>
    refine .inr ⟨fun x hx hxi => ?_, rfl⟩
    rw [List.getLast?_eq_none_iff, List.filter_eq_nil_iff] at hg
    exact hg x hx (by simpa using hxi)

/-- C15. The configuration in force is unique, so `C15_get` determines the answer. -/
theorem C15_in_force_unique (s0 : ConfEntry V) (ops : List (CMOp V)) (i : Nat) (a b : ConfEntry V)
    (ha : InForce (ops.foldl CMSpec.run ⟨[], s0⟩) i a) (hb : InForce (ops.foldl CMSpec.run ⟨[], s0⟩) i b) :
    a = b := by
  obtain ⟨hi, h1, h2⟩ := cm_refines ops ⟨[], s0⟩ ⟨[], s0⟩ (by simp [ConfManager.Inv]) ⟨rfl, rfl⟩
  unfold ConfManager.Inv at hi
  rw [h1] at hi
  rcases ha with ⟨ha1, ha2, ha3⟩ | ⟨ha1, ha2⟩ <;> rcases hb with ⟨hb1, hb2, hb3⟩ | ⟨hb1, hb2⟩
  · have e1 := ha3 b hb1 hb2
    have e2 := hb3 a ha1 ha2
    obtain ⟨n, hn, rfl⟩ := List.mem_iff_getElem.mp ha1
    obtain ⟨k, hk, rfl⟩ := List.mem_iff_getElem.mp hb1
    rw [List.pairwise_iff_getElem] at hi
    rcases Nat.lt_trichotomy n k with h | h | h
    · have := hi n k hn hk h; omega
    · subst h; rfl
    · have := hi k n hk hn h; omega
  · exact absurd ha2 (hb1 a ha1)
  · exact absurd hb2 (ha1 b hb1)
  · rw [ha2, hb2]

/-- C15. `last_configuration()` is the configuration in force at every index from the last live
entry's on. -/
theorem C15_last_configuration (s0 : ConfEntry V) (ops : List (CMOp V)) (i : Nat)
    (hi : ∀ x ∈ (ops.foldl CMSpec.run ⟨[], s0⟩).live, x.index ≤ i) :
    InForce (ops.foldl CMSpec.run ⟨[], s0⟩) i (ops.foldl CMOp.run ⟨[], s0⟩).lastConfiguration := by
  have hg := C15_get s0 ops i
  obtain ⟨hinv, h1, h2⟩ := cm_refines ops ⟨[], s0⟩ ⟨[], s0⟩ (by simp [ConfManager.Inv]) ⟨rfl, rfl⟩
  have : (ops.foldl CMOp.run ⟨[], s0⟩).get i = (ops.foldl CMOp.run ⟨[], s0⟩).lastConfiguration := by
    rw [ConfManager.get_eq _ _ hinv, List.filter_eq_self.mpr]
    · unfold ConfManager.lastConfiguration
      split
      · rename_i e he; rw [he]; rfl
      · rename_i he; rw [he]; rfl
    · intro a ha; rw [h1] at ha; simpa using hi a ha
  rw [← this]; exact hg

/-- Entries at 3, 7, 9; a snapshot at 5 compacts up to 3; 9 is truncated; then a stale add at 7 is
refused. The configuration at 8 is entry 7, at 6 it is the snapshot's. -/
example : let ops : List (CMOp String) := [.add ⟨3, "a"⟩, .add ⟨7, "b"⟩, .add ⟨9, "c"⟩, .setSnapshot ⟨5, "s"⟩,
      .truncatePrefix 4, .truncateSuffix 8, .add ⟨7, "d"⟩]
    let m := ops.foldl CMOp.run ⟨[], ⟨0, ""⟩⟩
    m.get 8 = ⟨7, "b"⟩ ∧ m.get 6 = ⟨5, "s"⟩ ∧ m.lastConfiguration = ⟨7, "b"⟩ ∧
    ∀ x ∈ (ops.foldl CMSpec.run ⟨[], ⟨0, ""⟩⟩).live, x.index ≤ 8 := by decide

end Braft.Props
