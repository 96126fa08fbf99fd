/-!
# ConfigurationManager

Model of src/braft/configuration_manager.cpp:21-78. A configuration entry is an index plus an
arbitrary payload (term, new and old configuration): no function here looks at the payload.
`CHECK` failures only log (butil's default), so the code continues as written.
-/
namespace Braft

/-- configuration_manager.h:25-48 `ConfigurationEntry`; `val` stands for id.term, conf, old_conf. -/
structure ConfEntry (V : Type) where
  index : Nat
  val : V
deriving DecidableEq, Repr

/-- configuration_manager.h:51-77: members `_configurations`, `_snapshot`. -/
structure ConfManager (V : Type) where
  configurations : List (ConfEntry V) := []
  snapshot : ConfEntry V
deriving Repr

namespace ConfManager
variable {V : Type}

/-- configuration_manager.cpp:21-31 `add`; `none` = returns -1. -/
def add (m : ConfManager V) (e : ConfEntry V) : Option (ConfManager V) :=
  match m.configurations.getLast? with
  | some b => if b.index ≥ e.index then none
              else some { m with configurations := m.configurations ++ [e] }
  | none => some { m with configurations := m.configurations ++ [e] }

/-- configuration_manager.cpp:33-38: `pop_front` while front.index < first_index_kept. -/
def popFrontWhile (k : Nat) : List (ConfEntry V) → List (ConfEntry V)
  | [] => []
  | e :: es => if e.index < k then popFrontWhile k es else e :: es

def truncatePrefix (m : ConfManager V) (firstKept : Nat) : ConfManager V :=
  { m with configurations := popFrontWhile firstKept m.configurations }

/-- configuration_manager.cpp:40-45: `pop_back` while back.index > last_index_kept. -/
def truncateSuffix (m : ConfManager V) (lastKept : Nat) : ConfManager V :=
  { m with configurations :=
      (m.configurations.reverse.dropWhile (fun e => decide (e.index > lastKept))).reverse }

/-- configuration_manager.cpp:47-50. The CHECK_GE only logs. -/
def setSnapshot (m : ConfManager V) (e : ConfEntry V) : ConfManager V := { m with snapshot := e }

/-- The loop of configuration_manager.cpp:59-65 together with `--it`: `prev` is the entry before
the iterator, `none` when the iterator is at begin(). -/
def scan (i : Nat) (prev : Option (ConfEntry V)) : List (ConfEntry V) → Option (ConfEntry V)
  | [] => prev
  | e :: es => if e.index > i then prev else scan i (some e) es

/-- configuration_manager.cpp:52-71 `get`. -/
def get (m : ConfManager V) (i : Nat) : ConfEntry V :=
  match m.configurations with
  | [] => m.snapshot
  | cs => match scan i none cs with
    | none => m.snapshot
    | some e => e

/-- configuration_manager.cpp:73-78 `last_configuration`. -/
def lastConfiguration (m : ConfManager V) : ConfEntry V :=
  match m.configurations.getLast? with
  | some e => e
  | none => m.snapshot

/-- Representation invariant: indexes strictly increase. -/
def Inv (m : ConfManager V) : Prop := m.configurations.Pairwise (fun a b => a.index < b.index)

theorem popFrontWhile_eq_filter (k : Nat) (l : List (ConfEntry V))
    (h : l.Pairwise (fun a b => a.index < b.index)) :
    popFrontWhile k l = l.filter (fun e => decide (k ≤ e.index)) := by
  induction l with
  | nil => rfl
  | cons e es ih =>
    rw [List.pairwise_cons] at h
    unfold popFrontWhile
    split
    · rename_i hk
      rw [ih h.2, List.filter_cons_of_neg]
      simp; omega
    · rename_i hk
      rw [List.filter_eq_self.mpr]
      intro a ha
      rcases List.mem_cons.mp ha with rfl | ha
      · simp; omega
      · have := h.1 a ha; simp; omega

theorem dropWhile_eq_filter_of_pairwise {α} (p : α → Bool) (l : List α)
    (h : l.Pairwise (fun a b => p b = true → p a = true)) :
    l.dropWhile p = l.filter (fun a => !p a) := by
  induction l with
  | nil => rfl
  | cons a as ih =>
    rw [List.pairwise_cons] at h
    rw [List.dropWhile_cons]
    split
    · rename_i hp; rw [ih h.2, List.filter_cons_of_neg]; simp [hp]
    · rename_i hp
      rw [List.filter_eq_self.mpr]
      intro b hb
      rcases List.mem_cons.mp hb with rfl | hb
      · simpa using hp
      · have := h.1 b hb
        cases hpb : p b with
        | false => rfl
        | true => exact absurd (this hpb) hp

theorem truncateSuffix_eq_filter (m : ConfManager V) (k : Nat) (h : m.Inv) :
    (m.truncateSuffix k).configurations = m.configurations.filter (fun e => decide (e.index ≤ k)) := by
  unfold truncateSuffix
  simp only
  rw [dropWhile_eq_filter_of_pairwise]
  · rw [← List.filter_reverse, List.reverse_reverse]
    congr 1; funext e; rw [Bool.eq_iff_iff]; simp
  · rw [List.pairwise_reverse]
    exact h.imp (fun {a b} hab => by simp; omega)

theorem inv_add {m m' : ConfManager V} {e} (h : m.Inv) (ha : m.add e = some m') : m'.Inv := by
  unfold add at ha
  split at ha
  · rename_i b hb
    split at ha
    · cases ha
    · rename_i hlt
      cases ha
      unfold Inv
      rw [List.pairwise_append]
      refine ⟨h, by simp, ?_⟩
      intro a ha x hx
      simp at hx; subst hx
      obtain ⟨init, hinit⟩ := List.getLast?_eq_some_iff.mp hb
      unfold Inv at h
      rw [hinit] at ha h
      rcases List.mem_append.mp ha with ha | ha
      · have := (List.pairwise_append.mp h).2.2 a ha b (by simp); omega
      · simp at ha; subst ha; omega
  · rename_i hb
    cases ha
    rw [List.getLast?_eq_none_iff] at hb
    simp [Inv, hb]

/-- `add` succeeds exactly when the index is larger than every index present. -/
theorem add_isSome_iff {m : ConfManager V} {e} (h : m.Inv) :
    (∃ m', m.add e = some m') ↔ ∀ x ∈ m.configurations, x.index < e.index := by
  unfold add
  split
  · rename_i b hb
    obtain ⟨init, hinit⟩ := List.getLast?_eq_some_iff.mp hb
    unfold Inv at h
    rw [hinit] at h ⊢
    split
    · rename_i hge
      constructor
      · rintro ⟨_, h⟩; cases h
      · intro hx; have := hx b (by simp); omega
    · rename_i hge
      refine ⟨fun _ x hx => ?_, fun _ => ⟨_, rfl⟩⟩
      rcases List.mem_append.mp hx with hx | hx
      · have := (List.pairwise_append.mp h).2.2 x hx b (by simp); omega
      · simp at hx; subst hx; omega
  · rename_i hb
    rw [List.getLast?_eq_none_iff] at hb
    simp [hb]

theorem add_configurations {m m' : ConfManager V} {e} (ha : m.add e = some m') :
    m'.configurations = m.configurations ++ [e] ∧ m'.snapshot = m.snapshot := by
  unfold add at ha
  split at ha
  · split at ha
    · cases ha
    · cases ha; simp
  · cases ha; simp

theorem inv_truncatePrefix {m : ConfManager V} {k} (h : m.Inv) : (m.truncatePrefix k).Inv := by
  unfold Inv truncatePrefix
  simp only
  rw [popFrontWhile_eq_filter k _ h]
  exact h.filter _

theorem inv_truncateSuffix {m : ConfManager V} {k} (h : m.Inv) : (m.truncateSuffix k).Inv := by
  unfold Inv
  rw [truncateSuffix_eq_filter m k h]
  exact h.filter _

theorem scan_spec (i : Nat) (l : List (ConfEntry V)) (prev : Option (ConfEntry V))
    (h : l.Pairwise (fun a b => a.index < b.index)) :
    scan i prev l = match (l.filter (fun e => decide (e.index ≤ i))).getLast? with
      | some e => some e
      | none => prev := by
  induction l generalizing prev with
  | nil => rfl
  | cons e es ih =>
    rw [List.pairwise_cons] at h
    unfold scan
    split
    · rename_i hgt
      have : (e :: es).filter (fun e => decide (e.index ≤ i)) = [] := by
        rw [List.filter_eq_nil_iff]
        intro a ha
        rcases List.mem_cons.mp ha with rfl | ha
        · simp; omega
        · have := h.1 a ha; simp; omega
      rw [this]; rfl
    · rename_i hle
      rw [ih _ h.2, List.filter_cons_of_pos (by simp; omega), List.getLast?_cons]
      cases hg : (es.filter (fun e => decide (e.index ≤ i))).getLast? <;> simp

/-- `get` returns the last entry at or below the index, or the snapshot. -/
theorem get_eq (m : ConfManager V) (i : Nat) (h : m.Inv) :
    m.get i = ((m.configurations.filter (fun e => decide (e.index ≤ i))).getLast?).getD m.snapshot := by
  unfold get
  split
  · rename_i hm; simp [hm]
  · rw [scan_spec i _ _ h]
    cases (m.configurations.filter (fun e => decide (e.index ≤ i))).getLast? <;> rfl

end ConfManager
end Braft
