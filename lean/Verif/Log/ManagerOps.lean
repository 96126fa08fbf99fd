import Verif.Log.ManagerSteps
/-
The operations of LogManager as a whole: what they do to the log.
-/
set_option linter.unusedVariables false
set_option linter.unusedSimpArgs false

namespace Braft.LogMgr
open Braft.MemLog

variable {α : Type}

theorem Core.congr {s s' : State α} {L} (h : Core s L) (h1 : s'.first = s.first) (h2 : s'.last = s.last)
    (h3 : s'.mem = s.mem) (h4 : s'.queue = s.queue) (h5 : s'.store = s.store) : Core s' L :=
  Core.done (js := []) (rest := s.queue) (m := s.store) h rfl rfl h1 h2 h3 h4 h5

theorem Inv0.congr {s s' : State α} {L} (h : Inv0 s L) (h1 : s'.first = s.first) (h2 : s'.last = s.last)
    (h3 : s'.mem = s.mem) (h4 : s'.queue = s.queue) (h5 : s'.store = s.store) (h6 : s'.snap = s.snap)
    (h7 : s'.virt = s.virt) (h8 : s'.applied = s.applied) : Inv0 s' L :=
  ⟨h.toCore.congr h1 h2 h3 h4 h5, by rw [h6, h2]; exact h.snapLast, by rw [h6, h1]; exact h.snapFirst,
    by rw [h6]; exact h.snapPos, by rw [h6]; exact h.snapTerm, by rw [h7, h1, h6]; exact h.virtOk,
    by rw [h6, h8]; exact h.appSnap, by rw [h8, h2]; exact h.appLast⟩

theorem Inv.congr {s s' : State α} {L} (h : Inv s L) (h1 : s'.first = s.first) (h2 : s'.last = s.last)
    (h3 : s'.mem = s.mem) (h4 : s'.queue = s.queue) (h5 : s'.store = s.store) (h6 : s'.snap = s.snap)
    (h7 : s'.virt = s.virt) (h8 : s'.applied = s.applied) : Inv s' L :=
  ⟨h.toInv0.congr h1 h2 h3 h4 h5 h6 h7 h8, by rw [h1, h8]; exact h.appFirst⟩

/-- A change of the log behind the applied index and the snapshot, on the same base. -/
theorem Inv.newTail {s s' : State α} {L L' : List (Ent α)} (h : Inv s L) (hc : Core s' L')
    (h1 : s'.first = s.first) (h6 : s'.snap = s.snap) (h7 : s'.virt = s.virt) (h8 : s'.applied = s.applied)
    (ha : s.applied.index ≤ s'.last)
    (hn : ∀ e ∈ L', e.index ≤ s.applied.index → e ∈ L) : Inv s' L' := by
  have hs := h.appSnap
  refine ⟨⟨hc, by rw [h6]; omega, by rw [h6, h1]; exact h.snapFirst, by rw [h6]; exact h.snapPos, ?_,
    by rw [h7, h1, h6]; exact h.virtOk, by rw [h6, h8]; exact hs, by rw [h8]; exact ha⟩,
    by rw [h1, h8]; exact h.appFirst⟩
  rw [h6]
  intro e he hi
  exact h.snapTerm e (hn e he (by omega)) hi

theorem init_inv0 {a : Sto α} (ha : StoOk a) (ht : ∀ e ∈ a.ents, 1 ≤ e.term) : Inv0 (init a) a.ents := by
  have hp := ha.pos
  refine ⟨⟨ha.pos, ha.idx, rfl, List.nil_suffix, ha, by simp [init, JobsOk], rfl, by simp [init], ht⟩, ?_,
    by simp [init], Or.inl rfl, ?_, Or.inl rfl, by simp [init], ?_⟩
  · show (0 : Int) ≤ a.last; unfold Sto.last; omega
  · intro e he hi
    have := consec_mem ha.idx he
    have h0 : e.index = 0 := hi
    omega
  · show (0 : Int) ≤ a.last; unfold Sto.last; omega

theorem init_inv {a : Sto α} (ha : StoOk a) (ht : ∀ e ∈ a.ents, 1 ≤ e.term) (h1 : a.first = 1) :
    Inv (init a) a.ents :=
  ⟨init_inv0 ha ht, by show a.first - 1 ≤ 0; omega⟩

/-! ### Appending -/

theorem number_consec (i : Int) (vs : List (Int × α)) : Consec i (number i vs) ∧ (number i vs).length = vs.length := by
  induction vs generalizing i with
  | nil => exact ⟨trivial, rfl⟩
  | cons v vs ih =>
    obtain ⟨t, v⟩ := v
    exact ⟨⟨rfl, (ih (i + 1)).1⟩, by simp [number, (ih (i + 1)).2]⟩

theorem Inv.appendLeader {s : State α} {L} (h : Inv s L) (he : s.err = false) (vs : List (Int × α)) (cid : Nat)
    (ht : ∀ v ∈ vs, 1 ≤ v.1) : Inv (s.appendLeader vs cid) (L ++ number (s.last + 1) vs) := by
  unfold State.appendLeader
  rw [if_neg (by rw [he]; simp)]
  obtain ⟨hc, hl⟩ := number_consec (s.last + 1) vs
  have hterm : ∀ e ∈ number (s.last + 1) vs, 1 ≤ e.term := by
    generalize s.last + 1 = i
    clear hc hl
    induction vs generalizing i with
    | nil => simp [number]
    | cons v vs ih =>
      obtain ⟨t, v⟩ := v
      intro e he
      rcases List.mem_cons.mp he with rfl | he
      · exact ht (t, v) (List.mem_cons_self ..)
      · exact ih (fun v hv => ht v (List.mem_cons_of_mem _ hv)) _ e he
  have hcore := h.toCore.enqueue cid hc hterm
  rw [hl] at hcore
  have ha := h.appLast
  refine h.newTail hcore rfl rfl rfl rfl ?_ ?_
  · show s.applied.index ≤ s.last + vs.length; omega
  · intro e he hi
    rcases List.mem_append.mp he with he | he
    · exact he
    · have := consec_mem hc he; omega

/-- Where the search for a conflict stops. -/
theorem unmatched_spec (s : State α) (es : List (Ent α)) :
    ∃ p, es = p ++ s.unmatched es ∧ (∀ x ∈ p, s.getTerm x.index = x.term) ∧
      (∀ e rest, s.unmatched es = e :: rest → s.getTerm e.index ≠ e.term) := by
  induction es with
  | nil => exact ⟨[], rfl, by simp, by simp [State.unmatched]⟩
  | cons e es ih =>
    by_cases hg : s.getTerm e.index ≠ e.term
    · refine ⟨[], ?_, by simp, ?_⟩
      · simp [State.unmatched, hg]
      · intro e' rest h
        rw [State.unmatched, if_pos hg] at h
        cases h; exact hg
    · obtain ⟨p, h1, h2, h3⟩ := ih
      have hu : s.unmatched (e :: es) = s.unmatched es := by rw [State.unmatched, if_neg hg]
      refine ⟨e :: p, ?_, ?_, ?_⟩
      · rw [hu, List.cons_append, ← h1]
      · intro x hx
        rcases List.mem_cons.mp hx with rfl | hx
        · exact Decidable.not_not.mp hg
        · exact h2 x hx
      · rw [hu]; exact h3

/-- Nothing is known beyond the last index. -/
theorem Inv0.getTerm_beyond {s : State α} {L} (h : Inv0 s L) {i : Int} (hi : s.last < i) : s.getTerm i = 0 := by
  have h1 := h.snapLast
  have h2 := h.pos
  have h3 := h.len
  rw [h.getTerm, Sto.at_none (Or.inr (by rw [h.log_last]; exact hi))]
  dsimp only
  have hv : i ≠ s.virt.index := by
    rcases h.virtOk with hv | ⟨_, _, _, hv, _⟩
    · rw [hv]; show i ≠ 0; omega
    · omega
  rw [if_neg (by omega), if_neg (by omega), if_neg hv]

/-- The log after a follower's append, for entries none of which conflicts at or below the applied
index. -/
inductive AppendRes (s : State α) (L : List (Ent α)) (es : List (Ent α)) (cid : Nat) (s' : State α) :
    List (Ent α) → Prop where
  | gap (f) (hf : es.head? = some f) (h : s.last + 1 < f.index) (hs : s' = { s with ran := s.ran ++ [(cid, false)] })
      (hn : s.newOf es = []) : AppendRes s L es cid s' L
  | known (b) (hb : es.getLast? = some b) (h : b.index ≤ s.applied.index)
      (hs : s' = { s with ran := s.ran ++ [(cid, true)] }) (hn : s.newOf es = []) : AppendRes s L es cid s' L
  | allMatch (hm : ∀ x ∈ es, s.getTerm x.index = x.term) (hs : s' = s.enqueue [] cid)
      (hn : s.newOf es = []) : AppendRes s L es cid s' L
  | from_ (p : List (Ent α)) (e : Ent α) (rest : List (Ent α)) (hes : es = p ++ e :: rest)
      (hm : ∀ x ∈ p, s.getTerm x.index = x.term) (hc : s.getTerm e.index ≠ e.term)
      (hi1 : s.applied.index < e.index) (hi2 : e.index ≤ s.last + 1)
      (b : Int) (hs : s' = ({ (if e.index ≤ s.last then s.truncateSuffix (e.index - 1) else s) with last := b }).enqueue (e :: rest) cid)
      (hn : s.newOf es = e :: rest) :
      AppendRes s L es cid s' (L.take (e.index - s.first).toNat ++ e :: rest)

theorem Inv.append {s : State α} {L} (h : Inv s L) (he : s.err = false) (es : List (Ent α)) (cid : Nat)
    {f : Int} (hc : Consec f es) (hne : es ≠ []) (ht : ∀ e ∈ es, 1 ≤ e.term)
    (hnc : (∃ b, es.getLast? = some b ∧ s.applied.index < b.index) → f ≤ s.last + 1 →
      ∀ e ∈ es, e.index ≤ s.applied.index → s.getTerm e.index = e.term) :
    ∃ L', Inv (s.append es cid) L' ∧ AppendRes s L es cid (s.append es cid) L' := by
  obtain ⟨x, xs, rfl⟩ : ∃ x xs, es = x :: xs := by
    cases es with
    | nil => exact absurd rfl hne
    | cons x xs => exact ⟨x, xs, rfl⟩
  have hx : x.index = f := hc.1
  obtain ⟨b, hb⟩ : ∃ b, (x :: xs).getLast? = some b := ⟨_, List.getLast?_eq_some_getLast (by simp)⟩
  have hbi : b.index = f + (x :: xs).length - 1 := by
    have hb' := hb
    rw [List.getLast?_eq_getElem?] at hb'
    have := consec_get _ _ hc _ _ hb'
    simp only [List.length_cons] at this ⊢
    omega
  have hnew0 : s.newOf (x :: xs) = (match s.check (x :: xs) x.index b.index with | .go _ es' => es' | _ => []) := by
    unfold State.newOf
    rw [if_neg (by rw [he]; simp), hb]
    rfl
  unfold State.append
  rw [if_neg (by rw [he]; simp), hb]
  simp only [List.head?_cons]
  unfold State.check at hnew0 ⊢
  by_cases h1 : x.index > s.last + 1
  · rw [if_pos h1]
    exact ⟨L, h.congr rfl rfl rfl rfl rfl rfl rfl rfl, .gap x rfl (by omega) rfl (by rw [hnew0, if_pos h1])⟩
  · rw [if_neg h1] at hnew0 ⊢
    by_cases h2 : b.index ≤ s.applied.index
    · rw [if_pos h2]
      exact ⟨L, h.congr rfl rfl rfl rfl rfl rfl rfl rfl, .known b hb h2 rfl (by rw [hnew0, if_pos h2])⟩
    · rw [if_neg h2] at hnew0 ⊢
      have hnc' := hnc ⟨b, hb, by omega⟩ (by omega)
      have hal := h.appLast
      have haf := h.appFirst
      have hlen := h.len
      by_cases h3 : x.index = s.last + 1
      · rw [if_pos h3] at hnew0 ⊢
        dsimp only
        have hcore := h.toCore.enqueue (es := x :: xs) cid (by rw [← h3, hx]; exact hc) ht
        have hbe : b.index = s.last + ((x :: xs).length : Int) := by omega
        rw [hbe]
        refine ⟨L ++ x :: xs, h.newTail hcore rfl rfl rfl rfl ?_ ?_, ?_⟩
        · show s.applied.index ≤ s.last + ((x :: xs).length : Int); omega
        · intro e he hi
          rcases List.mem_append.mp he with he | he
          · exact he
          · have := consec_mem hc he; omega
        · have hh := AppendRes.from_ (s := s) (L := L) (es := x :: xs) (cid := cid)
            (s' := ({ s with last := s.last + ((x :: xs).length : Int) } : State α).enqueue (x :: xs) cid)
            [] x xs rfl (by simp)
            (by rw [h.toInv0.getTerm_beyond (by omega)]; have := ht x (List.mem_cons_self ..); omega)
            (by omega) (by omega) (s.last + ((x :: xs).length : Int)) (by rw [if_neg (by omega)]) hnew0
          rwa [List.take_of_length_le (by omega)] at hh
      · rw [if_neg h3] at hnew0 ⊢
        obtain ⟨p, hp1, hp2, hp3⟩ := unmatched_spec s (x :: xs)
        cases hu : s.unmatched (x :: xs) with
        | nil =>
          rw [hu] at hnew0
          dsimp only
          rw [hu, List.append_nil] at hp1
          have hcore := h.toCore.enqueue (es := []) cid trivial (by simp)
          rw [List.append_nil] at hcore
          refine ⟨L, ?_, .allMatch (by rw [hp1]; exact hp2) rfl hnew0⟩
          refine h.newTail (hcore.congr rfl ?_ rfl rfl rfl) rfl rfl rfl rfl hal (fun e he _ => he)
          show s.last = s.last + ((0 : Nat) : Int); omega
        | cons e rest =>
          rw [hu] at hnew0
          dsimp only
          rw [hu] at hp1
          have hce := hc
          rw [hp1, consec_append] at hce
          have hei : e.index = f + p.length := hce.2.1
          have hgt := hp3 e rest hu
          have hea : s.applied.index < e.index := by
            by_cases hle : e.index ≤ s.applied.index
            · exact absurd (hnc' e (by rw [hp1]; exact List.mem_append_right _ (List.mem_cons_self ..)) hle) hgt
            · omega
          have hel : e.index ≤ s.last + 1 := by
            by_cases hel : e.index ≤ s.last + 1
            · exact hel
            · exfalso
              -- the entry with index last+1 was matched
              have hl : (s.last + 1 - f).toNat < p.length := by omega
              have hg : p[(s.last + 1 - f).toNat]? = some p[(s.last + 1 - f).toNat] := List.getElem?_eq_getElem hl
              have h4 := consec_get _ _ hce.1 _ _ hg
              have h5 := hp2 _ (List.mem_of_getElem? hg)
              have h6 := ht _ (by rw [hp1]; exact List.mem_append_left _ (List.mem_of_getElem? hg))
              rw [h.toInv0.getTerm_beyond (by omega)] at h5
              omega
          have htr : ∀ y ∈ e :: rest, 1 ≤ y.term := fun y hy => ht y (by rw [hp1]; exact List.mem_append_right _ hy)
          have hbl : b.index = e.index - 1 + ((e :: rest).length : Int) := by
            rw [hbi, hp1, List.length_append]; omega
          have hcr : Consec (e.index - 1 + 1) (e :: rest) := by
            rw [show e.index - 1 + 1 = f + (p.length : Int) by omega]; exact hce.2
          have hnew : ∀ y ∈ L.take (e.index - s.first).toNat ++ e :: rest, y.index ≤ s.applied.index → y ∈ L := by
            intro y hy hi
            rcases List.mem_append.mp hy with hy | hy
            · exact List.mem_of_mem_take hy
            · have := consec_mem hcr hy; omega
          refine ⟨L.take (e.index - s.first).toNat ++ e :: rest, ?_, .from_ p e rest hp1 hp2 hgt hea hel b.index rfl hnew0⟩
          · by_cases hle : e.index ≤ s.last
            · rw [if_pos hle]
              unfold State.truncateSuffix
              rw [if_neg (by omega)]
              dsimp only
              have hts := h.toCore.truncateSuffix (k := e.index - 1)
                (t := State.getTerm { s with mem := popBack (e.index - 1) s.mem, last := e.index - 1 } (e.index - 1))
                (by omega) (by omega)
              rw [show e.index - 1 + 1 - s.first = e.index - s.first by omega] at hts
              have hcore := hts.enqueue cid hcr htr
              rw [hbl]
              exact h.newTail hcore rfl rfl rfl rfl (by show s.applied.index ≤ e.index - 1 + ((e :: rest).length : Int); omega) hnew
            · rw [if_neg hle]
              have hll : e.index - 1 = s.last := by omega
              have hcore := h.toCore.enqueue cid (by rw [← hll]; exact hcr) htr
              rw [← hll] at hcore
              rw [hbl]
              have : L.take (e.index - s.first).toNat = L := List.take_of_length_le (by omega)
              rw [this] at hnew ⊢
              exact h.newTail hcore rfl rfl rfl rfl (by show s.applied.index ≤ e.index - 1 + ((e :: rest).length : Int); omega) hnew

/-! ### Snapshots -/

/-- A snapshot id that fits: its order relative to the applied id is the same by index and as LogId,
and a snapshot of applied entries has the term of the log there. -/
structure SnapOk (s : State α) (m : Id) : Prop where
  term : 1 ≤ m.term
  base : s.first - 1 ≤ m.index
  order : s.applied.lt m = decide (s.applied.index < m.index)
  own : m.index ≤ s.applied.index → s.getTerm m.index = m.term

/-- The log after set_snapshot. -/
inductive SnapRes (s : State α) (L : List (Ent α)) (m : Id) : List (Ent α) → Prop where
  /-- the log does not have the entry: everything up to it is dropped -/
  | beyond (h : s.getTerm m.index = 0) : SnapRes s L m (L.drop (m.index + 1 - s.first).toNat)
  /-- the log has it: everything up to the previous snapshot is dropped -/
  | same (h : s.getTerm m.index = m.term) (h' : 0 < s.snap.index) :
      SnapRes s L m (L.drop (s.snap.index + 1 - s.first).toNat)
  | sameFirst (h : s.getTerm m.index = m.term) (h' : s.snap.index = 0) : SnapRes s L m L
  /-- the log has another entry there: everything is dropped -/
  | differs (h : s.getTerm m.index ≠ 0) (h' : s.getTerm m.index ≠ m.term) : SnapRes s L m []

theorem Inv0.setSnapshot {s : State α} {L} (h : Inv0 s L) (m : Id) (hm : s.snap.index < m.index) (hok : SnapOk s m) :
    ∃ L', Inv (s.setSnapshot m) L' ∧ SnapRes s L m L' := by
  have hlen := h.len
  have hpos := h.pos
  have hsl := h.snapLast
  have hal := h.appLast
  have has := h.appSnap
  have hord := hok.order
  have hbase := hok.base
  have hmt := hok.term
  have hown := hok.own
  have hs0 : 0 ≤ s.snap.index := by
    rcases h.snapPos with hs | hs
    · rw [hs]; exact Int.le_refl 0
    · omega
  have hmv : m.index ≠ s.virt.index := by
    rcases h.virtOk with hv | ⟨_, _, _, hv, _⟩
    · rw [hv]; show m.index ≠ 0; omega
    · omega
  have hgt : s.getTerm m.index = (match (logOf s L).at m.index with | some e => e.term | none => 0) := by
    rw [h.getTerm]
    cases (logOf s L).at m.index with
    | some e => rfl
    | none => dsimp only; rw [if_neg (by omega), if_neg (by omega), if_neg hmv]
  let app : Id := if s.applied.lt m then m else s.applied
  have happ : app.index = max s.applied.index m.index := by
    show (if s.applied.lt m then m else s.applied).index = _
    rw [hord]
    by_cases hlt : s.applied.index < m.index
    · rw [if_pos (by simpa using hlt)]; omega
    · rw [if_neg (by simpa using hlt)]; omega
  unfold State.setSnapshot
  rw [if_neg (by omega)]
  dsimp only
  by_cases h0 : s.getTerm m.index = 0
  · rw [if_pos h0]
    refine ⟨L.drop (m.index + 1 - s.first).toNat, ?_, .beyond h0⟩
    have hcore := (h.toCore.congr (s' := { s with snap := m, applied := app, virt := m }) rfl rfl rfl rfl rfl).truncatePrefix
      (k := m.index + 1) (by show s.first ≤ m.index + 1; omega)
    have hlast : m.index ≤ (if m.index + 1 > s.last then m.index + 1 - 1 else s.last) ∧
        s.last ≤ (if m.index + 1 > s.last then m.index + 1 - 1 else s.last) := by split <;> omega
    refine ⟨⟨hcore, hlast.1, ?_, Or.inr ⟨by show 0 < m.index; omega, hmt⟩, ?_, Or.inr ⟨?_, ?_, hmt, Int.le_refl _, fun _ => rfl⟩, ?_, ?_⟩, ?_⟩
    · intro _; show m.index + 1 - 1 ≤ m.index; omega
    · intro e he hi
      exfalso
      have := (consec_mem hcore.idx he).1
      have h5 : m.index + 1 ≤ e.index := this
      have h6 : e.index = m.index := hi
      omega
    · show m.index = m.index + 1 - 1; omega
    · show 0 < m.index; omega
    · show m.index ≤ app.index; omega
    · show app.index ≤ (if m.index + 1 > s.last then m.index + 1 - 1 else s.last); omega
    · show m.index + 1 - 1 ≤ app.index; omega
  · rw [if_neg h0]
    -- the log has an entry at m.index
    obtain ⟨em, hem⟩ : ∃ e, (logOf s L).at m.index = some e := by
      cases ha : (logOf s L).at m.index with
      | some e => exact ⟨e, rfl⟩
      | none => rw [ha] at hgt; exact absurd hgt h0
    rw [hem] at hgt
    dsimp only at hgt
    obtain ⟨hmem, hemi⟩ := (Sto.at_iff (a := logOf s L) h.idx).mp hem
    have hin := consec_mem h.idx hmem
    by_cases h1 : s.getTerm m.index = m.term
    · rw [if_pos h1]
      by_cases h2 : s.snap.index > 0
      · rw [if_pos h2]
        have hsf := h.snapFirst h2
        refine ⟨L.drop (s.snap.index + 1 - s.first).toNat, ?_, .same h1 h2⟩
        have hcore := (h.toCore.congr (s' := { s with snap := m, applied := app, virt := s.snap }) rfl rfl rfl rfl rfl).truncatePrefix
          (k := s.snap.index + 1) (by show s.first ≤ s.snap.index + 1; omega)
        have hlast : (if s.snap.index + 1 > s.last then s.snap.index + 1 - 1 else s.last) = s.last := by
          rw [if_neg (by omega)]
        have hsp : 1 ≤ s.snap.term := by
          rcases h.snapPos with hs | hs
          · rw [hs] at h2; exact absurd h2 (by decide)
          · exact hs.2
        refine ⟨⟨hcore, ?_, ?_, Or.inr ⟨by show 0 < m.index; omega, hmt⟩, ?_, Or.inr ⟨?_, ?_, ?_, ?_, ?_⟩, ?_, ?_⟩, ?_⟩
        · show m.index ≤ (if s.snap.index + 1 > s.last then s.snap.index + 1 - 1 else s.last); rw [hlast]; omega
        · intro _; show s.snap.index + 1 - 1 ≤ m.index; omega
        · intro e he hi
          have h6 : e.index = m.index := hi
          have := consec_inj h.idx (List.mem_of_mem_drop he) hmem (by omega)
          rw [this, ← hgt]; exact h1
        · show s.snap.index = s.snap.index + 1 - 1; omega
        · show 0 < s.snap.index; omega
        · exact hsp
        · show s.snap.index ≤ m.index; omega
        · intro hx
          have hx' : s.snap.index = m.index := hx
          omega
        · show m.index ≤ app.index; omega
        · show app.index ≤ (if s.snap.index + 1 > s.last then s.snap.index + 1 - 1 else s.last); rw [hlast]; omega
        · show s.snap.index + 1 - 1 ≤ app.index; omega
      · rw [if_neg h2]
        refine ⟨L, ?_, .sameFirst h1 (by omega)⟩
        have hcore := h.toCore.congr (s' := { s with snap := m, applied := app }) rfl rfl rfl rfl rfl
        refine ⟨⟨hcore, ?_, ?_, Or.inr ⟨by show 0 < m.index; omega, hmt⟩, ?_, ?_, ?_, ?_⟩, ?_⟩
        · show m.index ≤ s.last; omega
        · intro _; exact hbase
        · intro e he hi
          have h6 : e.index = m.index := hi
          have := consec_inj h.idx he hmem (by omega)
          rw [this, ← hgt]; exact h1
        · rcases h.virtOk with hv | ⟨hv1, hv2, hv3, hv4, hv5⟩
          · exact Or.inl hv
          · exact absurd hv2 (by omega)
        · show m.index ≤ app.index; omega
        · show app.index ≤ s.last; omega
        · show s.first - 1 ≤ app.index; omega
    · rw [if_neg h1]
      refine ⟨[], ?_, .differs h0 h1⟩
      have hlt : s.applied.index < m.index := by
        by_cases hle : m.index ≤ s.applied.index
        · exact absurd (hown hle) h1
        · omega
      have hcore := (h.toCore.congr (s' := { s with snap := m, applied := app, virt := m }) rfl rfl rfl rfl rfl).reset
        (n := m.index + 1) (by omega)
      refine ⟨⟨hcore, ?_, ?_, Or.inr ⟨by show 0 < m.index; omega, hmt⟩, by simp, Or.inr ⟨?_, ?_, hmt, Int.le_refl _, fun _ => rfl⟩, ?_, ?_⟩, ?_⟩
      · show m.index ≤ m.index + 1 - 1; omega
      · intro _; show m.index + 1 - 1 ≤ m.index; omega
      · show m.index = m.index + 1 - 1; omega
      · show 0 < m.index; omega
      · show m.index ≤ app.index; omega
      · show app.index ≤ m.index + 1 - 1; omega
      · show m.index + 1 - 1 ≤ app.index; omega

theorem Inv.clearBuffered {s : State α} {L} (h : Inv s L) :
    Inv s.clearBuffered (if s.snap.index = 0 then L else L.drop (s.snap.index + 1 - s.first).toNat) := by
  unfold State.clearBuffered
  have hlen := h.len
  have hsl := h.snapLast
  have hal := h.appLast
  have has := h.appSnap
  by_cases h0 : s.snap.index = 0
  · rw [if_neg (by simpa using h0), if_pos h0]; exact h
  · rw [if_pos h0, if_neg h0]
    obtain ⟨hp, hpt⟩ : 0 < s.snap.index ∧ 1 ≤ s.snap.term := by
      rcases h.snapPos with hs | hs
      · rw [hs] at h0; exact absurd rfl h0
      · exact hs
    have hsf := h.snapFirst hp
    have hcore := (h.toCore.congr (s' := { s with virt := s.snap }) rfl rfl rfl rfl rfl).truncatePrefix
      (k := s.snap.index + 1) (by show s.first ≤ s.snap.index + 1; omega)
    have hlast : s.snap.index ≤ (if s.snap.index + 1 > s.last then s.snap.index + 1 - 1 else s.last) ∧
        s.last ≤ (if s.snap.index + 1 > s.last then s.snap.index + 1 - 1 else s.last) := by split <;> omega
    refine ⟨⟨hcore, hlast.1, ?_, h.snapPos, ?_, Or.inr ⟨?_, hp, hpt, Int.le_refl _, fun _ => rfl⟩, has, ?_⟩, ?_⟩
    · intro _; show s.snap.index + 1 - 1 ≤ s.snap.index; omega
    · intro e he hi
      exact h.snapTerm e (List.mem_of_mem_drop he) hi
    · show s.snap.index = s.snap.index + 1 - 1; omega
    · show s.applied.index ≤ (if s.snap.index + 1 > s.last then s.snap.index + 1 - 1 else s.last); omega
    · show s.snap.index + 1 - 1 ≤ s.applied.index; omega

/-! ### Applied id, disk id -/

theorem Inv.setApplied {s : State α} {L} (h : Inv s L) (i : Id) (h1 : i.lt s.applied = false → s.applied.index ≤ i.index)
    (h2 : i.index ≤ s.last) : Inv (s.setApplied i) L := by
  unfold State.setApplied
  cases hi : i.lt s.applied with
  | true => simpa using h
  | false =>
    simp only [Bool.false_eq_true, if_false]
    have := h1 hi
    have h3 := h.appSnap
    have h4 := h.appFirst
    exact ⟨⟨h.toCore.congr rfl rfl rfl rfl rfl, h.snapLast, h.snapFirst, h.snapPos, h.snapTerm, h.virtOk,
      by show s.snap.index ≤ i.index; omega, h2⟩, by show s.first - 1 ≤ i.index; omega⟩

theorem Inv.setDisk {s : State α} {L} (h : Inv s L) (i : Id) : Inv (s.setDisk i) L := by
  unfold State.setDisk
  cases i.lt s.disk with
  | true => simpa using h
  | false => exact h.congr rfl rfl rfl rfl rfl rfl rfl rfl

/-- The entry in front is not waiting for the disk, if `c` allows to remove it. -/
def SafeClear (s : State α) (c : Id) : Prop :=
  ∀ e rest, s.mem = e :: rest → c.lt (entId e) = false →
    ∀ es cid, Job.append es cid ∈ s.queue → ∀ x ∈ es, x.index ≠ e.index

theorem Inv.clear {s : State α} {L} (h : Inv s L) (c : Id) (hs : SafeClear s c) : Inv (s.clear c) L := by
  have hcore := h.toCore.clear c hs
  have heq : (s.clear c).first = s.first ∧ (s.clear c).last = s.last ∧ (s.clear c).snap = s.snap ∧
      (s.clear c).virt = s.virt ∧ (s.clear c).applied = s.applied := by
    unfold State.clear
    cases s.mem with
    | nil => exact ⟨rfl, rfl, rfl, rfl, rfl⟩
    | cons e es => dsimp only; split <;> exact ⟨rfl, rfl, rfl, rfl, rfl⟩
  obtain ⟨h1, h2, h3, h4, h5⟩ := heq
  exact ⟨⟨hcore, by rw [h3, h2]; exact h.snapLast, by rw [h3, h1]; exact h.snapFirst, by rw [h3]; exact h.snapPos,
    by rw [h3]; exact h.snapTerm, by rw [h4, h1, h3]; exact h.virtOk, by rw [h3, h5]; exact h.appSnap,
    by rw [h5, h2]; exact h.appLast⟩, by rw [h1, h5]; exact h.appFirst⟩

/-! ### Disk thread -/

theorem Inv.jobsDone {s s' : State α} {L} {js rest : List (Job α)} {m : Sto α} (h : Inv s L) (hq : s.queue = js ++ rest)
    (hm : s.store.runAll js = some m) (h1 : s'.first = s.first) (h2 : s'.last = s.last) (h3 : s'.mem = s.mem)
    (h4 : s'.queue = rest) (h5 : s'.store = m) (h6 : s'.snap = s.snap) (h7 : s'.virt = s.virt)
    (h8 : s'.applied = s.applied) : Inv s' L :=
  ⟨⟨h.toCore.done hq hm h1 h2 h3 h4 h5, by rw [h6, h2]; exact h.snapLast, by rw [h6, h1]; exact h.snapFirst,
    by rw [h6]; exact h.snapPos, by rw [h6]; exact h.snapTerm, by rw [h7, h1, h6]; exact h.virtOk,
    by rw [h6, h8]; exact h.appSnap, by rw [h8, h2]; exact h.appLast⟩, by rw [h1, h8]; exact h.appFirst⟩

theorem Inv.flushOk {s : State α} {L} (h : Inv s L) (he : s.err = false) {js rest : List (Job α)} (hq : s.queue = js ++ rest)
    (hj : AllAppends js) (l : Id) :
    Inv (s.flush js rest l (jobEnts js).length false) L ∧
      (s.flush js rest l (jobEnts js).length false).store = ⟨s.store.first, s.store.ents ++ jobEnts js⟩ ∧
      s.store.runAll js = some ⟨s.store.first, s.store.ents ++ jobEnts js⟩ := by
  have hp := h.pend
  rw [hq] at hp
  obtain ⟨m, hm, _⟩ := runAll_split hp
  have hmm := runAll_appends hj hm
  subst hmm
  have hst : (s.flush js rest l (jobEnts js).length false).store = ⟨s.store.first, s.store.ents ++ jobEnts js⟩ := by
    simp only [State.flush, he, Bool.false_eq_true, if_false]
    rw [List.take_of_length_le (Nat.le_refl _)]
  refine ⟨h.jobsDone hq hm ?_ ?_ ?_ ?_ hst ?_ ?_ ?_, hst, hm⟩
  all_goals
    simp [State.flush, he]

theorem Inv.execOk {s : State α} {L} (h : Inv s L) {j : Job α} {rest : List (Job α)} (hq : s.queue = j :: rest) (l : Id) :
    Inv (s.execOk j rest l) L ∧ s.store.run j = some (s.execOk j rest l).store := by
  have hp := h.pend
  rw [hq, show j :: rest = [j] ++ rest from rfl] at hp
  obtain ⟨m, hm, _⟩ := runAll_split hp
  have hr : s.store.run j = some m := by
    simp only [Sto.runAll] at hm
    cases hh : s.store.run j with
    | none => rw [hh] at hm; simp at hm
    | some a => rw [hh] at hm; simpa using hm
  have hst : (s.execOk j rest l).store = m := by
    unfold State.execOk
    rw [hr]
    cases j <;> rfl
  refine ⟨h.jobsDone (js := [j]) hq hm ?_ ?_ ?_ ?_ hst ?_ ?_ ?_, by rw [hst]; exact hr⟩
  all_goals
    unfold State.execOk
    cases j <;> rfl

end Braft.LogMgr
