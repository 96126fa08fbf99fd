import Verif.Log.Manager
/-
The invariant of LogManager and its preservation.
-/
set_option linter.unusedVariables false
set_option linter.unusedSimpArgs false

namespace Braft.LogMgr
open Braft.MemLog

variable {α : Type}

/-! ### Arrays -/

/-- An array whose entries carry their own index. -/
structure StoOk (a : Sto α) : Prop where
  pos : 1 ≤ a.first
  idx : Consec a.first a.ents

theorem Sto.at_iff {a : Sto α} (h : Consec a.first a.ents) {i : Int} {e : Ent α} :
    a.at i = some e ↔ e ∈ a.ents ∧ e.index = i := by
  unfold Sto.at
  constructor
  · intro h1
    by_cases hf : a.first ≤ i
    · rw [if_pos hf] at h1
      have := consec_get _ _ h _ _ h1
      exact ⟨List.mem_of_getElem? h1, by omega⟩
    · rw [if_neg hf] at h1; simp at h1
  · intro ⟨h1, h2⟩
    obtain ⟨n, hn, hne⟩ := List.getElem_of_mem h1
    have hg : a.ents[n]? = some e := by rw [List.getElem?_eq_getElem hn, hne]
    have := consec_get _ _ h _ _ hg
    rw [if_pos (by omega), show (i - a.first).toNat = n by omega, hg]

theorem Sto.at_none {a : Sto α} {i : Int} (h : i < a.first ∨ a.last < i) : a.at i = none := by
  unfold Sto.at
  by_cases hf : a.first ≤ i
  · rw [if_pos hf]
    unfold Sto.last at h
    exact List.getElem?_eq_none (by omega)
  · rw [if_neg hf]

theorem Sto.at_some {a : Sto α} {i : Int} (h1 : a.first ≤ i) (h2 : i ≤ a.last) : ∃ e, a.at i = some e := by
  unfold Sto.at
  unfold Sto.last at h2
  rw [if_pos h1]
  exact ⟨_, List.getElem?_eq_getElem (by omega)⟩

theorem consec_mem {f : Int} {l : List (Ent α)} (h : Consec f l) {e : Ent α} (he : e ∈ l) :
    f ≤ e.index ∧ e.index < f + l.length := by
  obtain ⟨n, hn, hne⟩ := List.getElem_of_mem he
  have hg : l[n]? = some e := by rw [List.getElem?_eq_getElem hn, hne]
  have := consec_get _ _ h _ _ hg
  omega

theorem consec_inj {f : Int} {l : List (Ent α)} (h : Consec f l) {a b : Ent α} (ha : a ∈ l) (hb : b ∈ l)
    (hi : a.index = b.index) : a = b := by
  have h1 := (Sto.at_iff (a := ⟨f, l⟩) h).mpr ⟨ha, rfl⟩
  have h2 := (Sto.at_iff (a := ⟨f, l⟩) h).mpr ⟨hb, hi.symm⟩
  rw [h1] at h2
  exact Option.some.inj h2

theorem consec_suffix {f : Int} {l m : List (Ent α)} (h : Consec f l) (hm : m <:+ l) :
    Consec (f + (l.length - m.length : Nat)) m := by
  obtain ⟨p, rfl⟩ := hm
  rw [consec_append] at h
  rw [List.length_append, show p.length + m.length - m.length = p.length by omega]
  exact h.2

/-- The jobs after which the log is `⟨f, L⟩`. -/
theorem runAll_append (a : Sto α) (x y : List (Job α)) :
    a.runAll (x ++ y) = (match a.runAll x with | none => none | some b => b.runAll y) := by
  induction x generalizing a with
  | nil => rfl
  | cons j x ih =>
    simp only [List.cons_append, Sto.runAll]
    cases a.run j with
    | none => rfl
    | some b => exact ih b

theorem runAll_snoc (a b : Sto α) (x : List (Job α)) (j : Job α) (h : a.runAll x = some b) :
    a.runAll (x ++ [j]) = b.run j := by
  rw [runAll_append, h]
  simp only [Sto.runAll]
  cases b.run j <;> rfl

theorem run_ok {a b : Sto α} {j : Job α} (h : a.run j = some b) (ha : StoOk a)
    (hj : ∀ es c, j = .append es c → ∀ f, es.head?.map (·.index) = some f → Consec f es) : StoOk b := by
  cases j with
  | append es c =>
    simp only [Sto.run] at h
    split at h
    · cases h; exact ha
    · split at h
      · rename_i h1 h2
        cases h
        refine ⟨ha.pos, ?_⟩
        show Consec a.first (a.ents ++ es)
        rw [consec_append]
        refine ⟨ha.idx, ?_⟩
        have := hj es c rfl _ h2
        rwa [show a.first + (a.ents.length : Int) = a.last + 1 by unfold Sto.last; omega]
      · simp at h
  | truncPrefix k =>
    simp only [Sto.run] at h
    split at h
    · rename_i hk
      cases h
      refine ⟨by have := ha.pos; show 1 ≤ k; omega, ?_⟩
      show Consec k (a.ents.drop _)
      by_cases hl : (k - a.first).toNat ≤ a.ents.length
      · have := consec_drop _ _ ha.idx _ hl
        rwa [show a.first + ((k - a.first).toNat : Int) = k by omega] at this
      · rw [List.drop_eq_nil_of_le (by omega)]; trivial
    · simp at h
  | truncSuffix k t =>
    simp only [Sto.run] at h
    split at h
    · cases h; exact ⟨ha.pos, consec_take _ _ ha.idx _⟩
    · simp at h
  | reset n =>
    simp only [Sto.run] at h
    split at h
    · cases h; exact ⟨by show 1 ≤ n; omega, trivial⟩
    · simp at h
  | lastId c w => simp only [Sto.run] at h; cases h; exact ha

/-- Append jobs in the queue are runs of consecutive entries. -/
def JobsOk (q : List (Job α)) : Prop :=
  ∀ es c, Job.append es c ∈ q → ∀ f, es.head?.map (·.index) = some f → Consec f es

/-- If no job in the queue appends an entry with index `i`, an entry that will be at `i` after the
queue is done is there already. -/
theorem runAll_at {a b : Sto α} {q : List (Job α)} (h : a.runAll q = some b) (ha : StoOk a) (hq : JobsOk q)
    {i : Int} {e : Ent α} (he : b.at i = some e)
    (hn : ∀ es c, Job.append es c ∈ q → ∀ x ∈ es, x.index ≠ i) : a.at i = some e := by
  induction q generalizing a with
  | nil => simp only [Sto.runAll, Option.some.injEq] at h; subst h; exact he
  | cons j q ih =>
    simp only [Sto.runAll] at h
    cases hr : a.run j with
    | none => rw [hr] at h; simp at h
    | some a' =>
      rw [hr] at h
      have hj : ∀ es c, j = .append es c → ∀ f, es.head?.map (·.index) = some f → Consec f es :=
        fun es c hj => hq es c (by rw [hj]; exact List.mem_cons_self ..)
      have ha' := run_ok hr ha hj
      have h1 : a'.at i = some e :=
        ih h ha' (fun es c hm => hq es c (List.mem_cons_of_mem _ hm)) (fun es c hm => hn es c (List.mem_cons_of_mem _ hm))
      obtain ⟨hm, hi⟩ := (Sto.at_iff ha'.idx).mp h1
      rw [Sto.at_iff ha.idx]
      refine ⟨?_, hi⟩
      cases j with
      | append es c =>
        simp only [Sto.run] at hr
        split at hr
        · cases hr; exact hm
        · split at hr
          · cases hr
            rcases List.mem_append.mp hm with hm | hm
            · exact hm
            · exact absurd hi (hn es c (List.mem_cons_self ..) e hm)
          · simp at hr
      | truncPrefix k =>
        simp only [Sto.run] at hr
        split at hr
        · cases hr; exact List.mem_of_mem_drop hm
        · simp at hr
      | truncSuffix k t =>
        simp only [Sto.run] at hr
        split at hr
        · cases hr; exact List.mem_of_mem_take hm
        · simp at hr
      | reset n =>
        simp only [Sto.run] at hr
        split at hr
        · cases hr; simp at hm
        · simp at hr
      | lastId c w => simp only [Sto.run] at hr; cases hr; exact hm

/-! ### The invariant -/

/-- `L` is the log: `first..last`. Its tail is in memory, the rest is on disk, and the queue leads from
what is on disk to it. -/
structure Core (s : State α) (L : List (Ent α)) : Prop where
  pos : 1 ≤ s.first
  idx : Consec s.first L
  len : s.last = s.first + L.length - 1
  suf : s.mem <:+ L
  sto : StoOk s.store
  jobs : JobsOk s.queue
  pend : s.store.runAll s.queue = some ⟨s.first, L⟩
  /-- an entry waiting for the disk is not below the entries in memory -/
  npend : ∀ es c, Job.append es c ∈ s.queue → ∀ e ∈ es, s.first ≤ e.index → s.last - s.mem.length < e.index
  termPos : ∀ e ∈ L, 1 ≤ e.term

/-- The snapshot id, the id before the first entry and the applied id fit the log. -/
structure Inv0 (s : State α) (L : List (Ent α)) : Prop extends Core s L where
  snapLast : s.snap.index ≤ s.last
  snapFirst : 0 < s.snap.index → s.first - 1 ≤ s.snap.index
  snapPos : (s.snap = ⟨0, 0⟩) ∨ (0 < s.snap.index ∧ 1 ≤ s.snap.term)
  snapTerm : ∀ e ∈ L, e.index = s.snap.index → e.term = s.snap.term
  virtOk : s.virt = ⟨0, 0⟩ ∨ (s.virt.index = s.first - 1 ∧ 0 < s.virt.index ∧ 1 ≤ s.virt.term ∧
    s.virt.index ≤ s.snap.index ∧ (s.virt.index = s.snap.index → s.virt.term = s.snap.term))
  appSnap : s.snap.index ≤ s.applied.index
  appLast : s.applied.index ≤ s.last

/-- ... and nothing that was not applied has been compacted. (Only before the snapshot is loaded at
startup this may be otherwise.) -/
structure Inv (s : State α) (L : List (Ent α)) : Prop extends Inv0 s L where
  appFirst : s.first - 1 ≤ s.applied.index

/-- The log as a whole: what get_entry shows. -/
def logOf (s : State α) (L : List (Ent α)) : Sto α := ⟨s.first, L⟩

theorem Core.log_last {s : State α} {L} (h : Core s L) : (logOf s L).last = s.last := by
  unfold Sto.last logOf; exact h.len.symm

/-! ### Reading -/

theorem Core.memAt {s : State α} {L} (h : Core s L) (i : Int) :
    s.memAt i = (if s.last - s.mem.length < i then (logOf s L).at i else none) := by
  have hlen := h.len
  obtain ⟨p, hp⟩ := h.suf
  have hL : L.length = p.length + s.mem.length := by rw [← hp, List.length_append]
  have hc := consec_suffix h.idx h.suf
  unfold State.memAt
  cases hm : s.mem with
  | nil =>
    simp only [List.head?_nil, List.length_nil]
    split
    · rw [Sto.at_none]; right; rw [h.log_last]; omega
    · rfl
  | cons x xs =>
    rw [hm] at hc hL
    have hx : x.index = s.first + p.length := by
      have := hc.1
      rw [hL] at this
      omega
    obtain ⟨y, hy⟩ : ∃ y, (x :: xs).getLast? = some y :=
      ⟨_, List.getLast?_eq_some_getLast (by simp)⟩
    have hyi : y.index = s.last := by
      rw [List.getLast?_eq_getElem?] at hy
      have := consec_get _ _ hc _ _ hy
      simp only [List.length_cons] at this hL
      omega
    rw [hy]
    simp only [List.head?_cons, List.length_cons]
    simp only [List.length_cons] at hL
    rw [hyi, hx]
    by_cases hi : s.last - ((xs.length + 1 : Nat) : Int) < i
    · rw [if_pos hi]
      by_cases hi2 : i ≤ s.last
      · rw [if_pos (by omega)]
        unfold Sto.at logOf
        rw [if_pos (by dsimp only; omega)]
        dsimp only
        rw [← hp, hm, List.getElem?_append_right (by omega)]
        congr 1
        omega
      · rw [if_neg (by omega), Sto.at_none]
        right; rw [h.log_last]; omega
    · rw [if_neg hi, if_neg (by omega)]

theorem Core.storeAt {s : State α} {L} (h : Core s L) {i : Int} (hf : s.first ≤ i) (hi : i ≤ s.last - s.mem.length) :
    s.store.at i = (logOf s L).at i := by
  obtain ⟨e, he⟩ := Sto.at_some (a := logOf s L) (i := i) hf (by rw [h.log_last]; omega)
  rw [he]
  apply runAll_at h.pend h.sto h.jobs he
  intro es c hm x hx hxi
  have := h.npend es c hm x hx (by omega)
  omega

/-- get_entry reads the log. -/
theorem Core.getEntry {s : State α} {L} (h : Core s L) (i : Int) : s.getEntry i = (logOf s L).at i := by
  unfold State.getEntry
  by_cases hi : i > s.last ∨ i < s.first
  · rw [if_pos hi, Sto.at_none]
    rw [h.log_last]
    rcases hi with hi | hi
    · exact Or.inr hi
    · exact Or.inl hi
  · rw [if_neg hi, h.memAt]
    by_cases hm : s.last - s.mem.length < i
    · rw [if_pos hm]
      obtain ⟨e, he⟩ := Sto.at_some (a := logOf s L) (i := i) (by show s.first ≤ i; omega) (by rw [h.log_last]; omega)
      rw [he]
    · rw [if_neg hm]
      exact h.storeAt (by omega) (by omega)

/-- get_term in terms of the log. -/
theorem Inv0.getTerm {s : State α} {L} (h : Inv0 s L) (i : Int) :
    s.getTerm i =
      (match (logOf s L).at i with
       | some e => e.term
       | none => if i = 0 then 0 else if i = s.snap.index then s.snap.term
                 else if i = s.virt.index then s.virt.term else 0) := by
  unfold State.getTerm
  have hpos := h.pos
  by_cases h0 : i = 0
  · subst h0
    rw [if_pos rfl, Sto.at_none (Or.inl (by show (0 : Int) < s.first; omega))]
    simp
  · rw [if_neg h0]
    by_cases hv : i = s.virt.index
    · rw [if_pos hv]
      rcases h.virtOk with hv' | ⟨hv1, hv2, hv2', hv3, hv4⟩
      · rw [hv'] at hv; exact absurd hv h0
      · rw [Sto.at_none (Or.inl (by show i < s.first; omega))]
        simp only [h0, if_false]
        by_cases hs : i = s.snap.index
        · rw [if_pos hs]; exact hv4 (by omega)
        · rw [if_neg hs, if_pos hv]
    · rw [if_neg hv]
      by_cases hs : i = s.snap.index
      · rw [if_pos hs]
        cases ha : (logOf s L).at i with
        | none => simp only [h0, hs, if_true]; rw [if_neg (by omega)]
        | some e =>
          obtain ⟨hm, hi⟩ := (Sto.at_iff (a := logOf s L) h.idx).mp ha
          exact (h.snapTerm e hm (by omega)).symm
      · rw [if_neg hs]
        by_cases hr : i > s.last ∨ i < s.first
        · rw [if_pos hr, Sto.at_none (by rw [h.log_last]; exact hr.symm)]
          simp only [h0, hs, hv, if_false]
        · rw [if_neg hr, h.memAt]
          obtain ⟨e, he⟩ := Sto.at_some (a := logOf s L) (i := i) (by show s.first ≤ i; omega) (by rw [h.log_last]; omega)
          by_cases hm : s.last - s.mem.length < i
          · rw [if_pos hm, he]
          · rw [if_neg hm]
            unfold Sto.termAt
            rw [h.storeAt (by omega) (by omega), he]

end Braft.LogMgr
