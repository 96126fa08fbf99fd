import Verif.Cluster.LogNodeFacts
/-
The relation between a server's list of entries and its LogManager.
-/
set_option linter.unusedVariables false
set_option linter.unusedSimpArgs false
set_option linter.unusedSectionVars false

namespace Braft.Cl
open Braft.Raft
open Braft.MemLog (Ent Consec)
open Braft.LogMgr (Sto Id number)
variable {N D : Type} [DecidableEq N] [DecidableEq D]

/-! ### Entries with indexes -/

theorem number_append {α : Type} (i : Int) (a b : List (Int × α)) :
    number i (a ++ b) = number i a ++ number (i + a.length) b := by
  induction a generalizing i with
  | nil => simp [number]
  | cons x a ih =>
    obtain ⟨t, v⟩ := x
    simp only [List.cons_append, number, ih, List.length_cons, List.cons.injEq, true_and]
    congr 2
    omega

theorem ents_nil (k : Nat) : ents k ([] : Log N D) = [] := rfl

theorem ents_cons (k : Nat) (e : Entry N D) (l : Log N D) :
    ents k (e :: l) = ⟨(k : Int) + 1, e.term, e.payload⟩ :: ents (k + 1) l := by
  unfold ents vals
  simp only [List.map_cons, number, List.cons.injEq, true_and]
  congr 1

theorem ents_append (k : Nat) (a b : Log N D) : ents k (a ++ b) = ents k a ++ ents (k + a.length) b := by
  unfold ents vals
  rw [List.map_append, number_append, List.length_map]
  congr 2
  omega

theorem ents_length (k : Nat) (l : Log N D) : (ents k l).length = l.length := by
  unfold ents
  rw [(LogMgr.number_consec _ _).2]
  simp [vals]

theorem ents_consec (k : Nat) (l : Log N D) : Consec ((k : Int) + 1) (ents k l) := (LogMgr.number_consec _ _).1

theorem ents_get (k : Nat) (l : Log N D) (n : Nat) :
    (ents k l)[n]? = (l[n]?).map (fun e => ⟨(k : Int) + n + 1, e.term, e.payload⟩) := by
  induction l generalizing k n with
  | nil => simp [ents_nil]
  | cons e l ih =>
    rw [ents_cons]
    cases n with
    | zero => simp
    | succ n =>
      simp only [List.getElem?_cons_succ, ih]
      congr 1
      funext e
      congr 1
      omega

theorem ents_take (k : Nat) (l : Log N D) (n : Nat) : (ents k l).take n = ents k (l.take n) := by
  induction l generalizing k n with
  | nil => simp [ents_nil]
  | cons e l ih =>
    cases n with
    | zero => simp [ents_nil]
    | succ n => simp only [ents_cons, List.take_succ_cons, ih]

theorem ents_drop (k : Nat) (l : Log N D) (n : Nat) (hn : n ≤ l.length) : (ents k l).drop n = ents (k + n) (l.drop n) := by
  induction l generalizing k n with
  | nil => simp only [List.length_nil, Nat.le_zero] at hn; subst hn; simp [ents_nil]
  | cons e l ih =>
    cases n with
    | zero => simp
    | succ n =>
      simp only [ents_cons, List.drop_succ_cons]
      rw [ih (k + 1) n (by simp only [List.length_cons] at hn; omega)]
      congr 1
      omega

theorem ents_mem {k : Nat} {l : Log N D} {x : Ent (Payload N D)} (h : x ∈ ents k l) :
    ∃ (n : Nat) (e : Entry N D), l[n]? = some e ∧ x = ⟨(k : Int) + n + 1, e.term, e.payload⟩ := by
  obtain ⟨n, hn, hx⟩ := List.getElem_of_mem h
  have h1 : (ents k l)[n]? = some x := by rw [List.getElem?_eq_getElem hn, hx]
  rw [ents_get] at h1
  cases hl : l[n]? with
  | none => rw [hl] at h1; simp at h1
  | some e => rw [hl] at h1; simp at h1; exact ⟨n, e, hl, h1.symm⟩

theorem ents_pos {k : Nat} {l : Log N D} (h : ∀ e ∈ l, 1 ≤ e.term) : ∀ x ∈ ents k l, 1 ≤ x.term := by
  intro x hx
  obtain ⟨n, e, h1, rfl⟩ := ents_mem hx
  have := h e (List.mem_of_getElem? h1)
  show (1 : Int) ≤ (e.term : Int)
  omega

/-! ### A storage that holds the end of a list -/

/-- The storage holds what follows some index of `d`. -/
structure StoRel (d : Log N D) (a : Sto (Payload N D)) (n : Nat) : Prop where
  first : a.first = (n : Int) + 1
  le : n ≤ d.length
  ents : a.ents = ents n (d.drop n)

def StoR (d : Log N D) (a : Sto (Payload N D)) : Prop := ∃ n, StoRel d a n

theorem StoRel.last {d : Log N D} {a : Sto (Payload N D)} {n : Nat} (h : StoRel d a n) : a.last = d.length := by
  unfold Sto.last
  rw [h.first, h.ents, ents_length, List.length_drop]
  have := h.le
  omega

theorem StoRel.at {d : Log N D} {a : Sto (Payload N D)} {n : Nat} (h : StoRel d a n) (k : Nat) :
    a.at ((k : Int) + 1) = if n ≤ k then (d[k]?).map (fun e => ⟨(k : Int) + 1, e.term, e.payload⟩) else none := by
  unfold Sto.at
  rw [h.first, h.ents]
  by_cases hk : n ≤ k
  · rw [if_pos (by omega), if_pos hk, ents_get, List.getElem?_drop]
    rw [show ((k : Int) + 1 - ((n : Int) + 1)).toNat = k - n by omega, show n + (k - n) = k by omega]
    congr 1
    funext e
    congr 1
    omega
  · rw [if_neg (by omega), if_neg hk]

theorem stoOfB_iff {d : Log N D} {a : Sto (Payload N D)} : stoOfB d a = true ↔ StoR d a := by
  unfold stoOfB
  simp only [Bool.and_eq_true, decide_eq_true_eq]
  constructor
  · rintro ⟨⟨h1, h2⟩, h3⟩
    exact ⟨(a.first - 1).toNat, by omega, by omega, h3⟩
  · rintro ⟨n, h⟩
    have h1 := h.first
    have h2 := h.le
    refine ⟨⟨by omega, by omega⟩, ?_⟩
    rw [show (a.first - 1).toNat = n by omega]
    exact h.ents

theorem StoR.ok {d : Log N D} {a : Sto (Payload N D)} (h : StoR d a) : LogMgr.StoOk a := by
  obtain ⟨n, h⟩ := h
  exact ⟨by rw [h.first]; omega, by rw [h.first, h.ents]; exact ents_consec _ _⟩

/-! ### Jobs -/

def runB (a : Sto (Payload N D)) : Option (LJob N D) → Option (Sto (Payload N D))
  | none => some a
  | some j => a.run j

/-- A job of the LogManager and steps with the same effect, when the disk holds `d`. -/
inductive Block (d : Log N D) (a : Sto (Payload N D)) : Pair N D → Prop where
  | noop (js : List (Job N D)) (h : drainJobs d js = d) : Block d a (none, js)
  | ask (cid : Nat) (w : Id) : Block d a (some (.lastId cid w), [])
  | append (l : Log N D) (c : Job N D) (cid : Nat) (hc : ∀ x : Log N D, applyJob x c = x) :
      Block d a (some (.append (ents d.length l) cid), l.map .push ++ [c])
  | suffix (k : Nat) (t : Int) (h1 : a.first ≤ (k : Int) + 1) (h2 : k ≤ d.length) :
      Block d a (some (.truncSuffix (k : Int) t), List.replicate (d.length - k) .pop)
  | pre (k : Nat) (js : List (Job N D)) (h1 : a.first ≤ (k : Int) + 1) (h2 : k ≤ (drainJobs d js).length)
      (h3 : (drainJobs d js).drop k = d.drop k) (h4 : k ≤ d.length → drainJobs d js = d) : Block d a (some (.truncPrefix ((k : Int) + 1)), js)
  | reset (k : Nat) (js : List (Job N D)) (h1 : a.first ≤ (k : Int) + 1) (h2 : (drainJobs d js).length = k) :
      Block d a (some (.reset ((k : Int) + 1)), js)

theorem drainJobs_append (d : Log N D) (x y : List (Job N D)) :
    drainJobs d (x ++ y) = drainJobs (drainJobs d x) y := by
  unfold drainJobs; rw [List.foldl_append]

theorem drain_push (d l : Log N D) : drainJobs d (l.map .push) = d ++ l := by
  induction l generalizing d with
  | nil => simp [drainJobs]
  | cons e l ih =>
    have := ih (d ++ [e])
    unfold drainJobs at this ⊢
    simp only [List.map_cons, List.foldl_cons, applyJob]
    rw [this]
    simp

theorem drain_pop (d : Log N D) (n : Nat) : drainJobs d (List.replicate n .pop) = d.take (d.length - n) := by
  induction n generalizing d with
  | zero => simp [drainJobs]
  | succ n ih =>
    have := ih d.dropLast
    unfold drainJobs at this ⊢
    simp only [List.replicate_succ, List.foldl_cons, applyJob]
    rw [this, List.length_dropLast, List.dropLast_eq_take, List.take_take]
    congr 1
    omega

theorem Block.run {d : Log N D} {a : Sto (Payload N D)} {b : Pair N D} (h : Block d a b) (hr : StoR d a) :
    ∃ a', runB a b.1 = some a' ∧ StoR (drainJobs d b.2) a' ∧ a.first ≤ a'.first := by
  obtain ⟨n, hr⟩ := hr
  have hf := hr.first
  have hle := hr.le
  cases h with
  | noop js h => exact ⟨a, rfl, by rw [show (drainJobs d (none, js).2) = d from h]; exact ⟨n, hr⟩, Int.le_refl _⟩
  | ask cid w => exact ⟨a, rfl, ⟨n, hr⟩, Int.le_refl _⟩
  | append l c cid hc =>
    have hd : drainJobs d (l.map .push ++ [c]) = d ++ l := by
      rw [drainJobs_append, drain_push]
      show applyJob (d ++ l) c = _
      exact hc _
    cases l with
    | nil =>
      refine ⟨a, ?_, ?_, Int.le_refl _⟩
      · simp [runB, Sto.run, ents_nil]
      · rw [hd, List.append_nil]; exact ⟨n, hr⟩
    | cons e l =>
      refine ⟨⟨a.first, a.ents ++ ents d.length (e :: l)⟩, ?_, ?_, Int.le_refl _⟩
      · simp only [runB, Sto.run]
        rw [ents_cons]
        rw [hr.last]
        simp
      · rw [hd]
        refine ⟨n, hf, by rw [List.length_append]; omega, ?_⟩
        show a.ents ++ _ = _
        rw [hr.ents, List.drop_append_of_le_length hle, ents_append, List.length_drop]
        congr 2
        omega
  | suffix k t h1 h2 =>
    refine ⟨⟨a.first, a.ents.take ((k : Int) + 1 - a.first).toNat⟩, ?_, ?_, Int.le_refl _⟩
    · simp only [runB, Sto.run]
      rw [hr.last, if_pos (by omega)]
    · show StoR (drainJobs d (List.replicate (d.length - k) .pop)) _
      rw [drain_pop, show d.length - (d.length - k) = k by omega]
      refine ⟨n, hf, by rw [List.length_take]; omega, ?_⟩
      show a.ents.take _ = _
      rw [hr.ents, ents_take, hf, show ((k : Int) + 1 - ((n : Int) + 1)).toNat = k - n by omega, List.drop_take]
  | pre k js h1 h2 h3 h4 =>
    refine ⟨⟨(k : Int) + 1, a.ents.drop ((k : Int) + 1 - a.first).toNat⟩, ?_, ?_, h1⟩
    · simp only [runB, Sto.run]
      rw [if_pos h1]
    · refine ⟨k, rfl, h2, ?_⟩
      show a.ents.drop _ = ents k ((drainJobs d js).drop k)
      rw [h3, hr.ents, hf, show ((k : Int) + 1 - ((n : Int) + 1)).toNat = k - n by omega]
      by_cases hk : k ≤ d.length
      · rw [ents_drop _ _ _ (by rw [List.length_drop]; omega), List.drop_drop]
        rw [show n + (k - n) = k by omega]
      · have h0 : d.drop k = [] := List.drop_eq_nil_of_le (by omega)
        rw [h0, List.drop_eq_nil_of_le (by rw [ents_length, List.length_drop]; omega)]
        rfl
  | reset k js h1 h2 =>
    refine ⟨⟨(k : Int) + 1, []⟩, ?_, ?_, h1⟩
    · simp only [runB, Sto.run]
      rw [if_pos (by omega)]
    · refine ⟨k, rfl, by show k ≤ (drainJobs d js).length; omega, ?_⟩
      show [] = ents k ((drainJobs d js).drop k)
      rw [List.drop_eq_nil_of_le (by omega)]
      rfl

/-- All pairs of a queue fit. -/
def ZOk : Log N D → Sto (Payload N D) → List (Pair N D) → Prop
  | _, _, [] => True
  | d, a, b :: z => Block d a b ∧ ∀ a', runB a b.1 = some a' → ZOk (drainJobs d b.2) a' z

theorem flat_cons (b : Pair N D) (z : List (Pair N D)) : flat (b :: z) = b.2 ++ flat z := by simp [flat]
theorem flat_append (x y : List (Pair N D)) : flat (x ++ y) = flat x ++ flat y := by simp [flat]
theorem lmJobs_append (x y : List (Pair N D)) : lmJobs (x ++ y) = lmJobs x ++ lmJobs y := by simp [lmJobs]

theorem runAll_cons (a : Sto (Payload N D)) (b : Pair N D) (z : List (Pair N D)) :
    a.runAll (lmJobs (b :: z)) = (runB a b.1).bind (fun a' => a'.runAll (lmJobs z)) := by
  obtain ⟨j, js⟩ := b
  cases j with
  | none => simp [lmJobs, runB]
  | some j =>
    simp only [lmJobs, List.filterMap_cons, runB, Sto.runAll]
    cases a.run j <;> rfl

theorem ZOk.run {d : Log N D} {a : Sto (Payload N D)} {z : List (Pair N D)} (h : ZOk d a z) (hr : StoR d a) :
    ∃ a', a.runAll (lmJobs z) = some a' ∧ StoR (drainJobs d (flat z)) a' ∧ a.first ≤ a'.first := by
  induction z generalizing d a with
  | nil => exact ⟨a, rfl, hr, Int.le_refl _⟩
  | cons b z ih =>
    obtain ⟨a1, h1, h2, h3⟩ := h.1.run hr
    obtain ⟨a2, h4, h5, h6⟩ := ih (h.2 a1 h1) h2
    refine ⟨a2, ?_, ?_, by omega⟩
    · rw [runAll_cons, h1]; exact h4
    · rw [flat_cons, drainJobs_append]; exact h5

theorem ZOk.append {d : Log N D} {a : Sto (Payload N D)} {z z' : List (Pair N D)} (h : ZOk d a z)
    (h' : ∀ a', a.runAll (lmJobs z) = some a' → ZOk (drainJobs d (flat z)) a' z') : ZOk d a (z ++ z') := by
  induction z generalizing d a with
  | nil => exact h' a rfl
  | cons b z ih =>
    refine ⟨h.1, fun a' ha => ?_⟩
    refine ih (h.2 a' ha) (fun a'' ha'' => ?_)
    have := h' a'' (by rw [runAll_cons, ha]; exact ha'')
    rwa [flat_cons, drainJobs_append] at this

theorem ZOk.split {d : Log N D} {a : Sto (Payload N D)} {z z' : List (Pair N D)} (h : ZOk d a (z ++ z')) :
    ZOk d a z ∧ ∀ a', a.runAll (lmJobs z) = some a' → ZOk (drainJobs d (flat z)) a' z' := by
  induction z generalizing d a with
  | nil => exact ⟨trivial, fun a' ha => by cases ha; exact h⟩
  | cons b z ih =>
    refine ⟨⟨h.1, fun a' ha => (ih (h.2 a' ha)).1⟩, fun a' ha => ?_⟩
    rw [runAll_cons] at ha
    cases hb : runB a b.1 with
    | none => rw [hb] at ha; cases ha
    | some a1 =>
      rw [hb] at ha
      have := (ih (h.2 a1 hb)).2 a' ha
      rwa [flat_cons, drainJobs_append]

/-- What the storage has dropped: less than the snapshot `S` has, or the beginning of `l`. -/
def Base (l S d : Log N D) (a : Sto (Payload N D)) : Prop :=
  a.first - 1 < S.length ∨ d.take (a.first - 1).toNat = l.take (a.first - 1).toNat

/-- ... now and after every pair. -/
def ZBase (l S : Log N D) : Log N D → Sto (Payload N D) → List (Pair N D) → Prop
  | d, a, [] => Base l S d a
  | d, a, b :: z => Base l S d a ∧ ∀ a', runB a b.1 = some a' → ZBase l S (drainJobs d b.2) a' z

theorem ZBase.head {l S d : Log N D} {a : Sto (Payload N D)} {z : List (Pair N D)} (h : ZBase l S d a z) : Base l S d a := by
  cases z with
  | nil => exact h
  | cons b z => exact h.1

theorem Base.mono {l l' S S' d : Log N D} {a : Sto (Payload N D)} (h : Base l S d a) (F : Nat)
    (hF : a.first ≤ (F : Int) + 1) (hl : l'.take F = l.take F) (hS : S.length ≤ S'.length) : Base l' S' d a := by
  rcases h with h | h
  · exact Or.inl (by omega)
  · refine Or.inr ?_
    have h1 : ∀ x : Log N D, x.take (a.first - 1).toNat = (x.take F).take (a.first - 1).toNat := by
      intro x
      rw [List.take_take]
      congr 1
      omega
    rw [h, h1 l, ← hl, ← h1 l']

theorem ZBase.mono {l l' S S' d : Log N D} {a : Sto (Payload N D)} {z : List (Pair N D)} (h : ZBase l S d a z) (F : Nat)
    (hz : ZOk d a z) (hr : StoR d a) (hF : ∀ a', a.runAll (lmJobs z) = some a' → a'.first ≤ (F : Int) + 1)
    (hl : l'.take F = l.take F) (hS : S.length ≤ S'.length) : ZBase l' S' d a z := by
  induction z generalizing d a with
  | nil => exact Base.mono h F (hF a rfl) hl hS
  | cons b z ih =>
    obtain ⟨a1, h1, h2, h3⟩ := ZOk.run hz hr
    refine ⟨Base.mono h.1 F (by have := hF a1 h1; omega) hl hS, fun a' ha => ?_⟩
    obtain ⟨a2, h4, h5, h6⟩ := hz.1.run hr
    rw [ha] at h4
    cases h4
    refine ih (h.2 a' ha) (hz.2 a' ha) h5 (fun a'' ha'' => hF a'' ?_)
    rw [runAll_cons, ha]; exact ha''

theorem ZBase.append {l S d : Log N D} {a : Sto (Payload N D)} {z z' : List (Pair N D)} (h : ZBase l S d a z)
    (h' : ∀ a', a.runAll (lmJobs z) = some a' → ZBase l S (drainJobs d (flat z)) a' z') : ZBase l S d a (z ++ z') := by
  induction z generalizing d a with
  | nil => exact h' a rfl
  | cons b z ih =>
    refine ⟨h.1, fun a' ha => ?_⟩
    refine ih (h.2 a' ha) (fun a'' ha'' => ?_)
    have := h' a'' (by rw [runAll_cons, ha]; exact ha'')
    rwa [flat_cons, drainJobs_append] at this

theorem ZBase.after {l S d : Log N D} {a : Sto (Payload N D)} {z z' : List (Pair N D)} (h : ZBase l S d a (z ++ z')) :
    ∀ a', a.runAll (lmJobs z) = some a' → ZBase l S (drainJobs d (flat z)) a' z' := by
  induction z generalizing d a with
  | nil => exact fun a' ha => by cases ha; exact h
  | cons b z ih =>
    intro a' ha
    rw [runAll_cons] at ha
    cases hb : runB a b.1 with
    | none => rw [hb] at ha; cases ha
    | some a1 =>
      rw [hb] at ha
      have := ih (h.2 a1 hb) a' ha
      rwa [flat_cons, drainJobs_append]

theorem pairUp_flat (ls : List (LJob N D)) (cs : List (Job N D)) : flat (pairUp ls cs) = cs := by
  induction ls generalizing cs with
  | nil =>
    unfold pairUp
    cases cs <;> simp [flat]
  | cons j ls ih =>
    cases ls with
    | nil => simp [pairUp, flat]
    | cons j' ls =>
      simp only [pairUp, flat_cons]
      rw [ih, List.takeWhile_append_dropWhile]

theorem pairUp_jobs (ls : List (LJob N D)) (cs : List (Job N D)) : lmJobs (pairUp ls cs) = ls := by
  induction ls generalizing cs with
  | nil =>
    unfold pairUp
    cases cs <;> simp [lmJobs]
  | cons j ls ih =>
    cases ls with
    | nil => simp [pairUp, lmJobs]
    | cons j' ls =>
      simp only [pairUp]
      have := ih (cs.dropWhile isPop)
      simp only [lmJobs] at this ⊢
      simp only [List.filterMap_cons, this]

/-! ### The relation -/

/-- A LogManager without error. -/
structure Live (c : Srv N D) (x : LNode N D) : Prop where
  err : x.lm.err = false
  inv : ∃ L, LogMgr.Inv x.lm L
  cq : c.queue = flat x.z
  sq : x.lm.queue = lmJobs x.z
  st : StoR c.disk x.lm.store
  zok : ZOk c.disk x.lm.store x.z
  snap : x.lm.snap = idOf c.snap
  app : x.lm.applied = ⟨c.applied, termAt c.log c.applied⟩
  virt : ∀ n : Nat, x.lm.virt.index = n → n ≠ 0 → x.lm.virt.term = termAt c.log n
  fst : x.lm.first - 1 ≤ c.snap.length
  bs : ZBase c.log c.snap c.disk x.lm.store x.z

/-- A LogManager with an error: its storage is what some steps of the disk queue lead to. -/
structure Dead (c : Srv N D) (x : LNode N D) : Prop where
  err : x.lm.err = true
  st : ∃ n, n ≤ c.queue.length ∧ StoR (drainJobs c.disk (c.queue.take n)) x.lm.store ∧
    Base c.log c.snap (drainJobs c.disk (c.queue.take n)) x.lm.store
  fst : x.lm.store.first - 1 ≤ c.snap.length

def Joint (c : Srv N D) (x : LNode N D) : Prop := Live c x ∨ Dead c x

/-- The log of a LogManager that agrees with the list `l`. -/
structure View (l : Log N D) (m : LM N D) (n : Nat) : Prop where
  first : m.first = (n : Int) + 1
  last : m.last = l.length
  le : n ≤ l.length
  inv : LogMgr.Inv m (ents n (l.drop n))

theorem Live.view {c : Srv N D} {x : LNode N D} (h : Live c x) (f : SF c) : ∃ n, View c.log x.lm n := by
  obtain ⟨L, hi⟩ := h.inv
  obtain ⟨a', h1, ⟨n, h2⟩, _⟩ := h.zok.run h.st
  have hp := hi.pend
  rw [h.sq, h1] at hp
  cases hp
  rw [← h.cq, f.mem] at h2
  have hf := h2.first
  have he := h2.ents
  dsimp only at hf he
  subst he
  refine ⟨n, hf, ?_, h2.le, hi⟩
  have := h2.last
  have hl := hi.log_last
  unfold LogMgr.logOf at hl
  rw [← hl]
  exact this

theorem Live.first_le {c : Srv N D} {x : LNode N D} (h : Live c x) : x.lm.store.first ≤ x.lm.first := by
  obtain ⟨L, hi⟩ := h.inv
  obtain ⟨a', h1, _, h3⟩ := h.zok.run h.st
  have hp := hi.pend
  rw [h.sq, h1] at hp
  cases hp
  exact h3

theorem View.sto {l : Log N D} {m : LM N D} {n : Nat} (v : View l m n) :
    StoRel l (LogMgr.logOf m (ents n (l.drop n))) n := ⟨v.first, v.le, rfl⟩

/-- get_entry reads the list. -/
theorem View.entry {l : Log N D} {m : LM N D} {n : Nat} (v : View l m n) (k : Nat) :
    m.getEntry ((k : Int) + 1) =
      if n ≤ k then (l[k]?).map (fun e => ⟨(k : Int) + 1, e.term, e.payload⟩) else none := by
  rw [v.inv.toCore.getEntry]
  exact v.sto.at k

/-- get_term is the list's from the first index on. -/
theorem View.term {l : Log N D} {m : LM N D} {n : Nat} (v : View l m n) {k : Nat} (hk : n < k) :
    m.getTerm (k : Int) = termAt l k := by
  obtain ⟨j, rfl⟩ : ∃ j, k = j + 1 := ⟨k - 1, by omega⟩
  have hj : n ≤ j := by omega
  rcases Nat.lt_or_ge j l.length with hlt | hge
  · rw [v.inv.toInv0.getTerm]
    have := v.sto.at j
    rw [if_pos hj, List.getElem?_eq_getElem hlt] at this
    rw [show ((j + 1 : Nat) : Int) = (j : Int) + 1 by omega, this]
    unfold termAt
    rw [if_neg (by omega), Nat.add_sub_cancel, List.getElem?_eq_getElem hlt]
    rfl
  · rw [v.inv.toInv0.getTerm_beyond (by rw [v.last]; omega), termAt_beyond (by omega)]
    rfl

/-- get_term, for every index: 0 for what is compacted, the list's term otherwise. -/
theorem Live.term {c : Srv N D} {x : LNode N D} (h : Live c x) (f : SF c) (k : Nat) :
    x.lm.getTerm (k : Int) = if goneOf x.lm k then 0 else (termAt c.log k : Int) := by
  obtain ⟨n, v⟩ := h.view f
  have hfst := h.fst
  have hvf := v.first
  by_cases hk : n < k
  · rw [v.term hk]
    by_cases hg : goneOf x.lm k = true
    · rw [if_pos hg]
      unfold goneOf at hg
      simp only [Bool.and_eq_true, decide_eq_true_eq] at hg
      rw [← v.term hk]
      exact hg.1.1
    · rw [if_neg hg]
  · by_cases h0 : k = 0
    · subst h0
      have hg : goneOf x.lm 0 = false := by unfold goneOf; simp
      rw [hg]
      unfold LogMgr.State.getTerm
      simp [termAt]
    · have hnone : (LogMgr.logOf x.lm (ents n (c.log.drop n))).at (k : Int) = none := by
        apply LogMgr.Sto.at_none
        left
        show (k : Int) < x.lm.first
        omega
      have hgt := v.inv.toInv0.getTerm (k : Int)
      rw [hnone] at hgt
      dsimp only at hgt
      rw [if_neg (by omega)] at hgt
      have hsn := h.snap
      have hsi : x.lm.snap.index = c.snap.length := by rw [hsn]; rfl
      have hst : x.lm.snap.term = lastTerm c.snap := by rw [hsn]; rfl
      by_cases hkv : (k : Int) = x.lm.virt.index
      · have hvt := h.virt k hkv.symm h0
        have hvp : 1 ≤ x.lm.virt.term := by
          rcases v.inv.virtOk with h1 | h1
          · rw [h1] at hkv; exact absurd hkv (by show ¬ (k : Int) = 0; omega)
          · exact h1.2.2.1
        have : x.lm.getTerm (k : Int) = x.lm.virt.term := by
          rw [hgt]
          by_cases hks : (k : Int) = x.lm.snap.index
          · rw [if_pos hks]
            rcases v.inv.virtOk with h1 | h1
            · rw [h1] at hkv; exact absurd hkv (by show ¬ (k : Int) = 0; omega)
            · exact (h1.2.2.2.2 (by omega)).symm
          · rw [if_neg hks, if_pos hkv]
        have hg : ¬ goneOf x.lm k = true := by
          unfold goneOf
          rw [this]
          simp only [Bool.and_eq_true, decide_eq_true_eq]
          omega
        rw [if_neg hg, this, hvt]
      · rw [if_neg hkv] at hgt
        by_cases hks : (k : Int) = x.lm.snap.index
        · rw [if_pos hks] at hgt
          have hg : ¬ goneOf x.lm k = true := by
            unfold goneOf
            simp only [Bool.and_eq_true, decide_eq_true_eq]
            omega
          rw [if_neg hg, hgt, hst]
          obtain ⟨r, hr⟩ := f.sn
          have hl : k = c.snap.length := by omega
          rw [hl, ← hr, termAt_append_left (Nat.le_refl _)]
          unfold termAt lastTerm
          rw [if_neg (by omega), List.getLast?_eq_getElem?]
        · rw [if_neg hks] at hgt
          have hg : goneOf x.lm k = true := by
            unfold goneOf
            simp only [Bool.and_eq_true, decide_eq_true_eq]
            omega
          rw [if_pos hg, hgt]

end Braft.Cl
