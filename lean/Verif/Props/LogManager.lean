import Verif.Log.ManagerLast
/-
C16, C17, C18, C45, C51 and C52: LogManager.

`Run a s ev dn` are the histories of LogManager (Log/ManagerRun.lean) from a storage with content `a`: all
interleavings of appends, snapshots, applied ids, the disk thread and the clearing of memory, with
failures. `s.getEntry` and `s.getTerm` are LogManager::get_entry and get_term.
-/
set_option linter.unusedVariables false
set_option linter.unusedSimpArgs false

namespace Braft.Props
open Braft.LogMgr
open Braft.MemLog (Ent Consec)

variable {α : Type}

/-! ### Specification -/

namespace LogSpec

/-- `after` is `before` with the leader's entries `es` (from index `f` on): the prefix is unchanged, the
entries are there, and what follows them is kept unless one of them conflicted. -/
structure LeaderLog (before after : Int → Option (Ent α)) (f : Int) (es : List (Ent α)) : Prop where
  pre : ∀ i, i < f → after i = before i
  ents : ∀ e ∈ es, ∃ x, after e.index = some x ∧ x.index = e.index ∧ x.term = e.term ∧
    (x = e ∨ before e.index = some x)
  keep : (∀ e ∈ es, ∀ x, before e.index = some x → x.term = e.term) →
    ∀ i, (∀ e ∈ es, e.index < i) → after i = before i
  drop : (∃ e ∈ es, ∃ x, before e.index = some x ∧ x.term ≠ e.term) →
    ∀ i, (∀ e ∈ es, e.index < i) → after i = none

end LogSpec

/-! ### C16 -/

theorem at_take {f : Int} {L : List (Ent α)} {n : Nat} {i : Int} (h : i < f + n) :
    (⟨f, L.take n⟩ : Sto α).at i = (⟨f, L⟩ : Sto α).at i := by
  unfold Sto.at
  by_cases hf : f ≤ i
  · rw [if_pos hf, if_pos hf]
    dsimp only
    rw [List.getElem?_take_of_lt (by omega)]
  · rw [if_neg hf, if_neg hf]

theorem at_append_left {f : Int} {L M : List (Ent α)} {i : Int} (h : i < f + L.length) :
    (⟨f, L ++ M⟩ : Sto α).at i = (⟨f, L⟩ : Sto α).at i := by
  unfold Sto.at
  by_cases hf : f ≤ i
  · rw [if_pos hf, if_pos hf]
    dsimp only
    rw [List.getElem?_append_left (by omega)]
  · rw [if_neg hf, if_neg hf]

/-- **C16.** A follower whose log has an entry (or snapshot) with the term of the leader's previous entry
appends the leader's entries, no storage error having occurred. If none of the leader's entries
contradicts an entry that was already applied (C03 and C05 ensure this), its log afterwards is the
leader's. Partial: a request that starts at index 1 (so that there is no previous entry to compare) is
covered only if the log still begins there; `append_below_compaction` shows what happens otherwise. -/
theorem append_gives_leaders_log_partial {a : Sto α} {s : State α} {ev dn} (r : Run a s ev dn) (he : s.err = false)
    (es : List (Ent α)) (cid : Nat) {f : Int} (hc : Consec f es) (hne : es ≠ []) (ht : ∀ e ∈ es, 1 ≤ e.term)
    (hprev : s.getTerm (f - 1) ≠ 0 ∨ (f = 1 ∧ s.first = 1))
    (hsame : ∀ e ∈ es, e.index ≤ s.applied.index → ∀ x, s.getEntry e.index = some x → x.term = e.term) :
    LogSpec.LeaderLog s.getEntry (s.append es cid).getEntry f es ∧
      ∀ i, i ≤ s.applied.index → (s.append es cid).getEntry i = s.getEntry i := by
  obtain ⟨L, hg⟩ := r.good he
  have hinv := hg.inv
  have hlen := hinv.len
  have hpos := hinv.pos
  have haf := hinv.appFirst
  have hal := hinv.appLast
  have hff : s.first ≤ f ∧ f ≤ s.last + 1 := by
    rcases hprev with h | ⟨h, h'⟩
    · refine ⟨?_, ?_⟩
      · rcases getTerm_cases s (f - 1) with h0 | ⟨h1, _⟩ | ⟨h1, h2⟩ | ⟨e, h1, _⟩
        · exact absurd h0 h
        · rcases hinv.virtOk with hv | ⟨hv, _⟩
          · exfalso; apply h; unfold State.getTerm; rw [h1, hv]; rfl
          · omega
        · rcases hinv.snapPos with hs | ⟨hs, _⟩
          · exfalso; apply h; rw [h2, hs]
          · have := hinv.snapFirst hs; omega
        · rw [hinv.toCore.getEntry] at h1
          obtain ⟨hm, hi⟩ := (Sto.at_iff (a := logOf s L) hinv.idx).mp h1
          have := consec_mem hinv.idx hm
          omega
      · have h3 : ¬ s.last < f - 1 := fun hl => h (hinv.toInv0.getTerm_beyond hl)
        omega
    · omega
  obtain ⟨hf1, hf2⟩ := hff
  have hent : ∀ i, s.first ≤ i → i ≤ s.last → ∃ x, s.getEntry i = some x ∧ s.getTerm i = x.term ∧ x.index = i := by
    intro i h1 h2
    obtain ⟨x, hx⟩ := Sto.at_some (a := logOf s L) (i := i) h1 (by rw [hinv.log_last]; exact h2)
    refine ⟨x, by rw [hinv.toCore.getEntry]; exact hx, by rw [hinv.toInv0.getTerm, hx], ?_⟩
    exact ((Sto.at_iff (a := logOf s L) hinv.idx).mp hx).2
  have hidx : ∀ e ∈ es, f ≤ e.index := fun e he' => (consec_mem hc he').1
  obtain ⟨L', h1, hres⟩ := hinv.append he es cid hc hne ht (by
    intro _ _ e hem hle
    obtain ⟨x, hx1, hx2, _⟩ := hent e.index (by have := hidx e hem; omega) (by omega)
    rw [hx2]; exact hsame e hem hle x hx1)
  cases hres with
  | gap g hg' hgap hs hn =>
    exfalso
    cases es with
    | nil => simp at hne
    | cons y ys =>
      simp only [List.head?_cons, Option.some.injEq] at hg'
      subst hg'
      have := hc.1
      omega
  | known b hb hle hs hn =>
    have hsm : ∀ i, (s.append es cid).getEntry i = s.getEntry i := by intro i; rw [hs]; rfl
    have hall : ∀ e ∈ es, e.index ≤ s.applied.index := by
      intro e hem
      have h3 := consec_mem hc hem
      rw [List.getLast?_eq_getElem?] at hb
      have h4 := MemLog.consec_get _ _ hc _ _ hb
      omega
    refine ⟨⟨fun i _ => hsm i, ?_, fun _ i _ => hsm i, ?_⟩, fun i _ => hsm i⟩
    · intro e hem
      have h5 := hidx e hem
      have h6 := hall e hem
      obtain ⟨x, hx1, hx2, hx3⟩ := hent e.index (by omega) (by omega)
      exact ⟨x, by rw [hsm]; exact hx1, hx3, hsame e hem h6 x hx1, Or.inr hx1⟩
    · rintro ⟨e, hem, x, hx1, hx2⟩
      exact absurd (hsame e hem (hall e hem) x hx1) hx2
  | allMatch hm hs hn =>
    have hsm : ∀ i, (s.append es cid).getEntry i = s.getEntry i := by
      intro i
      rw [h1.toCore.getEntry, hinv.toCore.getEntry, hs]
      rfl
    have hex : ∀ e ∈ es, ∃ x, s.getEntry e.index = some x ∧ e.term = x.term ∧ x.index = e.index := by
      intro e hem
      have h3 := hm e hem
      have h4 := ht e hem
      have h5 : ¬ s.last < e.index := by
        intro hl
        rw [hinv.toInv0.getTerm_beyond hl] at h3
        omega
      have h6 := hidx e hem
      obtain ⟨x, hx1, hx2, hx3⟩ := hent e.index (by omega) (by omega)
      exact ⟨x, hx1, by omega, hx3⟩
    refine ⟨⟨fun i _ => hsm i, ?_, fun _ i _ => hsm i, ?_⟩, fun i _ => hsm i⟩
    · intro e hem
      obtain ⟨x, hx1, hx2, hx3⟩ := hex e hem
      exact ⟨x, by rw [hsm]; exact hx1, hx3, hx2.symm, Or.inr hx1⟩
    · rintro ⟨e, hem, x, hx1, hx2⟩
      obtain ⟨y, hy1, hy2, _⟩ := hex e hem
      rw [hx1] at hy1
      cases hy1
      exact absurd hy2.symm hx2
  | from_ p e rest hes hm hcn hi1 hi2 b hs hn =>
    have hfst : (s.append es cid).first = s.first := by
      rw [hs]
      show (if e.index ≤ s.last then s.truncateSuffix (e.index - 1) else s).first = s.first
      split
      · unfold State.truncateSuffix; split <;> rfl
      · rfl
    have hce := hc
    rw [hes, MemLog.consec_append] at hce
    have hei : e.index = f + p.length := hce.2.1
    have hG : ∀ i, s.getEntry i = (⟨s.first, L⟩ : Sto α).at i := fun i => hinv.toCore.getEntry i
    have hA : ∀ i, (s.append es cid).getEntry i =
        (⟨s.first, L.take (e.index - s.first).toNat ++ e :: rest⟩ : Sto α).at i := by
      intro i; rw [h1.toCore.getEntry]; unfold logOf; rw [hfst]
    have htl : (L.take (e.index - s.first).toNat).length = (e.index - s.first).toNat := by
      rw [List.length_take]; omega
    have hlow : ∀ i, i < e.index → (s.append es cid).getEntry i = s.getEntry i := by
      intro i hi
      rw [hA, hG]
      rw [at_append_left (by rw [htl]; omega), at_take (by omega)]
    have hidx' : Consec s.first (L.take (e.index - s.first).toNat ++ e :: rest) := by
      have := h1.idx; rwa [hfst] at this
    have hexm : ∀ x ∈ p, ∃ y, s.getEntry x.index = some y ∧ x.term = y.term ∧ y.index = x.index := by
      intro x hx
      have h3 := hm x hx
      have h4 := ht x (by rw [hes]; exact List.mem_append_left _ hx)
      have h5 : ¬ s.last < x.index := by
        intro hl
        rw [hinv.toInv0.getTerm_beyond hl] at h3
        omega
      have h6 := consec_mem hce.1 hx
      obtain ⟨y, hy1, hy2, hy3⟩ := hent x.index (by omega) (by omega)
      exact ⟨y, hy1, by omega, hy3⟩
    have hbeyond : ∀ i, (∀ x ∈ es, x.index < i) → (s.append es cid).getEntry i = none := by
      intro i hi
      rw [hA, Sto.at_none]
      right
      unfold Sto.last
      simp only [List.length_append, htl, List.length_cons]
      obtain ⟨y, hy⟩ : ∃ y, es.getLast? = some y := ⟨_, List.getLast?_eq_some_getLast hne⟩
      have h3 := hi y (List.mem_of_getLast? hy)
      rw [List.getLast?_eq_getElem?] at hy
      have h4 := MemLog.consec_get _ _ hc _ _ hy
      rw [hes] at h4
      simp only [List.length_append, List.length_cons] at h4
      omega
    refine ⟨⟨fun i hi => hlow i (by omega), ?_, ?_, fun _ => hbeyond⟩, fun i hi => hlow i (by omega)⟩
    · intro x hx
      rw [hes] at hx
      rcases List.mem_append.mp hx with hx | hx
      · obtain ⟨y, hy1, hy2, hy3⟩ := hexm x hx
        have h6 := consec_mem hce.1 hx
        exact ⟨y, by rw [hlow _ (by omega)]; exact hy1, hy3, hy2.symm, Or.inr hy1⟩
      · refine ⟨x, ?_, rfl, rfl, Or.inl rfl⟩
        rw [hA]
        exact (Sto.at_iff hidx').mpr ⟨List.mem_append_right _ hx, rfl⟩
    · intro hno i hi
      rw [hbeyond i hi]
      -- the first new entry is at last + 1
      have hemem : e ∈ es := by rw [hes]; exact List.mem_append_right _ (List.mem_cons_self ..)
      have hel : e.index = s.last + 1 := by
        by_cases hel : e.index ≤ s.last
        · exfalso
          obtain ⟨y, hy1, hy2, _⟩ := hent e.index (by have := hidx e hemem; omega) hel
          have := hno e hemem y hy1
          omega
        · omega
      have := hi e hemem
      rw [hG, Sto.at_none]
      right
      unfold Sto.last
      dsimp only
      omega

/-! Examples of histories. -/

/-- An empty storage. -/
def lm0 : Sto Nat := ⟨1, []⟩

theorem lm0_start : Run lm0 (init lm0) [] [] :=
  Run.start (a := lm0) ⟨by decide, (trivial : Consec 1 ([] : List (Ent Nat)))⟩ (by simp [lm0]) rfl

/-- A follower gets (1, term 1), (2, term 3) and (3, term 3); nothing is on disk yet. -/
def lm1 : State Nat := (init lm0).append [⟨1, 1, 10⟩, ⟨2, 3, 20⟩, ⟨3, 3, 30⟩] 0

theorem lm1_run : Run lm0 lm1 [⟨1, 1⟩, ⟨2, 3⟩, ⟨3, 3⟩] [] :=
  .append lm0_start [⟨1, 1, 10⟩, ⟨2, 3, 20⟩, ⟨3, 3, 30⟩] 0 1
    ⟨rfl, rfl, rfl, trivial⟩ (by simp) (by decide) (by
      intro _ _ e he hle
      simp only [List.mem_cons, List.not_mem_nil, or_false] at he
      have h0 : (init lm0).applied.index = 0 := rfl
      rw [h0] at hle
      rcases he with rfl | rfl | rfl <;> simp at hle)

/-- ... which the hypotheses of `append_gives_leaders_log_partial` allow to be overwritten from index 2 on. -/
example : LogSpec.LeaderLog lm1.getEntry (lm1.append [⟨2, 4, 21⟩] 1).getEntry 2 [⟨2, 4, 21⟩] ∧
    ∀ i, i ≤ lm1.applied.index → (lm1.append [⟨2, 4, 21⟩] 1).getEntry i = lm1.getEntry i :=
  append_gives_leaders_log_partial lm1_run rfl [⟨2, 4, 21⟩] 1 ⟨rfl, trivial⟩ (by simp) (by decide) (Or.inl (by decide)) (by
    intro e he hle
    simp only [List.mem_singleton] at he
    subst he
    have h0 : lm1.applied.index = 0 := rfl
    rw [h0] at hle
    simp at hle)

/-- The entries there before, and after. -/
example : lm1.getEntry 2 = some ⟨2, 3, 20⟩ ∧ lm1.getEntry 3 = some ⟨3, 3, 30⟩ ∧
    (lm1.append [⟨2, 4, 21⟩] 1).getEntry 2 = some ⟨2, 4, 21⟩ ∧ (lm1.append [⟨2, 4, 21⟩] 1).getEntry 3 = none := by
  decide

/-! What is missing in C16. -/

/-- A follower with four entries, all of term 1, applied up to 3 and not on disk. -/
def lmC1 : State Nat := (init lm0).append [⟨1, 1, 10⟩, ⟨2, 1, 20⟩, ⟨3, 1, 30⟩] 0

/-- ... that has taken snapshots at 1, 2 and 3, so that its log now starts at 3. -/
def lmC : State Nat :=
  (((lmC1.setApplied ⟨3, 1⟩).setSnapshot ⟨1, 1⟩).setSnapshot ⟨2, 1⟩).setSnapshot ⟨3, 1⟩

theorem lmC1_run : Run lm0 lmC1 [⟨1, 1⟩, ⟨2, 1⟩, ⟨3, 1⟩] [] :=
  .append lm0_start [⟨1, 1, 10⟩, ⟨2, 1, 20⟩, ⟨3, 1, 30⟩] 0 1
    ⟨rfl, rfl, rfl, trivial⟩ (by simp) (by decide) (by
      intro _ _ e he hle
      simp only [List.mem_cons, List.not_mem_nil, or_false] at he
      have h0 : (init lm0).applied.index = 0 := rfl
      rw [h0] at hle
      rcases he with rfl | rfl | rfl <;> simp at hle)

theorem lmC_run : Run lm0 lmC [⟨1, 1⟩, ⟨2, 1⟩, ⟨3, 1⟩] [] := by
  have h1 : Run lm0 (lmC1.setApplied ⟨3, 1⟩) [⟨1, 1⟩, ⟨2, 1⟩, ⟨3, 1⟩] [] :=
    .setApplied lmC1_run ⟨3, 1⟩ (by decide) (by decide)
  have h2 := Run.setSnapshot h1 ⟨1, 1⟩ (fun _ => ⟨by decide, by decide, by decide, by decide⟩)
  have h3 := Run.setSnapshot h2 ⟨2, 1⟩ (fun _ => ⟨by decide, by decide, by decide, by decide⟩)
  exact Run.setSnapshot h3 ⟨3, 1⟩ (fun _ => ⟨by decide, by decide, by decide, by decide⟩)

/-- **C16, missing part.** A delayed AppendEntries of the leader for indexes 1 to 4 arrives (no previous
entry, hence always accepted). All its entries are those of the log, but indexes 1 and 2 were compacted:
get_term answers 0 for index 1, which is taken for a conflict below the applied index. The truncation is
refused with LOG(FATAL), which does not stop the program, and the entries are added behind the ones in
memory: get_entry(4) afterwards is the entry with index 1. -/
theorem append_below_compaction :
    Run lm0 lmC [⟨1, 1⟩, ⟨2, 1⟩, ⟨3, 1⟩] [] ∧ lmC.err = false ∧ lmC.applied.index = 3 ∧ lmC.first = 3 ∧
    (lmC.append [⟨1, 1, 10⟩, ⟨2, 1, 20⟩, ⟨3, 1, 30⟩, ⟨4, 1, 40⟩] 1).getEntry 4 = some ⟨1, 1, 10⟩ :=
  ⟨lmC_run, by decide, by decide, by decide, by decide⟩

/-! ### C17 -/

/-- **C17.** In every history without a storage error get_term agrees with the log: it is the term of the
entry for the indexes of the log (which are exactly `first..last`), the snapshot's term at the snapshot's
index, 0 beyond the last index, and any other answer but 0 is the term of an entry that was in the log at
that index, directly before the present first one. `Run` includes every interleaving with the disk
thread and with the clearing of memory. Partial: entries may leave the memory only if entries always
arrived in the order of their ids (`Increasing`), or if they are not waiting for the disk (`SafeClear`);
`stale_entry_after_clear` shows that without this the property fails. -/
theorem term_lookup_partial {a : Sto α} {s : State α} {ev dn} (r : Run a s ev dn) (he : s.err = false) (i : Int) :
    ((s.first ≤ i ∧ i ≤ s.last) ↔ ∃ e, s.getEntry i = some e) ∧
    (∀ e, s.getEntry i = some e → e.index = i ∧ s.getTerm i = e.term ∧ (⟨i, e.term⟩ : Id) ∈ ev) ∧
    (i = s.snap.index → s.getTerm i = s.snap.term) ∧
    (s.last < i → s.getTerm i = 0) ∧
    (s.getEntry i = none → i ≠ s.snap.index → s.getTerm i ≠ 0 → i = s.first - 1 ∧ (⟨i, s.getTerm i⟩ : Id) ∈ ev) := by
  obtain ⟨L, hg⟩ := r.good he
  have hinv := hg.inv
  have hgt := hinv.toInv0.getTerm i
  have hge := hinv.toCore.getEntry i
  refine ⟨⟨?_, ?_⟩, ?_, ?_, fun h => hinv.toInv0.getTerm_beyond h, ?_⟩
  · intro ⟨h1, h2⟩
    rw [hge]
    exact Sto.at_some (a := logOf s L) h1 (by rw [hinv.log_last]; exact h2)
  · rintro ⟨e, h⟩
    rw [hge] at h
    obtain ⟨hm, hi⟩ := (Sto.at_iff (a := logOf s L) hinv.idx).mp h
    have := consec_mem hinv.idx hm
    have := hinv.len
    omega
  · intro e h
    rw [hge] at h
    rw [h] at hgt
    obtain ⟨hm, hi⟩ := (Sto.at_iff (a := logOf s L) hinv.idx).mp h
    refine ⟨hi, hgt, ?_⟩
    have := hg.ids e hm
    rwa [show entId e = ⟨i, e.term⟩ by unfold entId; rw [hi]] at this
  · intro h
    rw [hgt]
    cases hat : (logOf s L).at i with
    | none =>
      dsimp only
      by_cases h0 : i = 0
      · rw [if_pos h0]
        rcases hinv.snapPos with hs | hs
        · rw [hs]
        · omega
      · rw [if_neg h0, if_pos h]
    | some e =>
      obtain ⟨hm, hi⟩ := (Sto.at_iff (a := logOf s L) hinv.idx).mp hat
      exact hinv.snapTerm e hm (by omega)
  · intro h h1 h2
    rw [hge] at h
    rw [h] at hgt
    dsimp only at hgt
    have h0 : i ≠ 0 := by intro h0; rw [if_pos h0] at hgt; exact h2 hgt
    rw [if_neg h0, if_neg h1] at hgt
    by_cases hv : i = s.virt.index
    · rw [if_pos hv] at hgt
      rcases hinv.virtOk with hv' | ⟨hv1, _⟩
      · rw [hv'] at hv; exact absurd hv h0
      · refine ⟨by omega, ?_⟩
        rcases (r.there he).2 with ht | ht
        · rw [ht] at hv; exact absurd hv h0
        · rw [hgt, hv]; exact ht
    · rw [if_neg hv] at hgt; exact absurd hgt h2

example : ∃ e, lmC.getEntry 3 = some e ∧ lmC.getTerm 3 = 1 ∧ lmC.getTerm 2 = 1 ∧ lmC.getTerm 1 = 0 ∧ lmC.getTerm 4 = 0 :=
  ⟨⟨3, 1, 30⟩, by decide⟩

theorem getTerm_same {s s' : State α} {L} (h : Inv0 s L) (h' : Inv0 s' L) (h1 : s'.first = s.first) (h2 : s'.snap = s.snap)
    (h3 : s'.virt = s.virt) (i : Int) : s'.getTerm i = s.getTerm i := by
  rw [h.getTerm, h'.getTerm, h2, h3]; unfold logOf; rw [h1]

/-- **C17.** Moving entries from memory to disk does not change what get_entry and get_term answer:
removing entries from memory ... -/
theorem clear_keeps_log_partial {a : Sto α} {s : State α} {ev dn} (r : Run a s ev dn) (he : s.err = false) (c : Id)
    (hc : c ∈ s.clears) (hs : Increasing ev ∨ SafeClear s c) (i : Int) :
    (s.clear c).getEntry i = s.getEntry i ∧ (s.clear c).getTerm i = s.getTerm i := by
  obtain ⟨L, hg⟩ := r.good he
  have hsafe : SafeClear s c := by
    rcases hs with h | h
    · exact (hg.fresh h).safe hg.inv.toCore hc
    · exact h
  have hi := hg.inv.clear c hsafe
  have heq : (s.clear c).first = s.first ∧ (s.clear c).snap = s.snap ∧ (s.clear c).virt = s.virt := by
    unfold State.clear
    cases s.mem with
    | nil => exact ⟨rfl, rfl, rfl⟩
    | cons e es => dsimp only; split <;> exact ⟨rfl, rfl, rfl⟩
  refine ⟨?_, getTerm_same hg.inv.toInv0 hi.toInv0 heq.1 heq.2.1 heq.2.2 i⟩
  rw [hi.toCore.getEntry, hg.inv.toCore.getEntry]; unfold logOf; rw [heq.1]

/-- ... and the work of the disk thread. -/
theorem disk_keeps_log {a : Sto α} {s : State α} {ev dn} (r : Run a s ev dn) (he : s.err = false)
    (js rest : List (Job α)) (l : Id) (n : Nat) (late : Bool) (j : Job α) (i : Int) :
    (s.queue = js ++ rest → AllAppends js → (s.flush js rest l n late).err = false →
      (s.flush js rest l n late).getEntry i = s.getEntry i ∧ (s.flush js rest l n late).getTerm i = s.getTerm i) ∧
    (s.queue = j :: rest →
      (s.execOk j rest l).getEntry i = s.getEntry i ∧ (s.execOk j rest l).getTerm i = s.getTerm i) := by
  obtain ⟨L, hg⟩ := r.good he
  constructor
  · intro hq hj herr
    have hlate : late = false := by simp [State.flush, he] at herr; exact herr.2
    have hn' : n = (jobEnts js).length := by simp [State.flush, he] at herr; exact herr.1
    subst hlate hn'
    obtain ⟨hi, _, _⟩ := hg.inv.flushOk he hq hj l
    have heq : (s.flush js rest l (jobEnts js).length false).first = s.first ∧
        (s.flush js rest l (jobEnts js).length false).snap = s.snap ∧
        (s.flush js rest l (jobEnts js).length false).virt = s.virt := by simp [State.flush, he]
    refine ⟨?_, getTerm_same hg.inv.toInv0 hi.toInv0 heq.1 heq.2.1 heq.2.2 i⟩
    rw [hi.toCore.getEntry, hg.inv.toCore.getEntry]; unfold logOf; rw [heq.1]
  · intro hq
    obtain ⟨hi, _⟩ := hg.inv.execOk hq l
    have heq : (s.execOk j rest l).first = s.first ∧ (s.execOk j rest l).snap = s.snap ∧
        (s.execOk j rest l).virt = s.virt := by cases j <;> exact ⟨rfl, rfl, rfl⟩
    refine ⟨?_, getTerm_same hg.inv.toInv0 hi.toInv0 heq.1 heq.2.1 heq.2.2 i⟩
    rw [hi.toCore.getEntry, hg.inv.toCore.getEntry]; unfold logOf; rw [heq.1]

/-- A follower's first two entries, (1, term 1) and (2, term 3), are flushed. -/
def lmD1 : State Nat := (init lm0).append [⟨1, 1, 10⟩, ⟨2, 3, 20⟩] 0
def lmD2 : State Nat := lmD1.roundStart.flush [.append [⟨1, 1, 10⟩, ⟨2, 3, 20⟩] 0] [] ⟨0, 0⟩ 2 false
def lmD3 : State Nat := lmD2.roundEnd ⟨2, 3⟩

/-- The leader of term 4 replaces (2, term 3) by (2, term 2) and appends (3, term 4). A heartbeat then tells
that they are committed, and they are applied, before they are on disk. -/
def lmD4 : State Nat := (lmD3.append [⟨2, 2, 21⟩, ⟨3, 4, 30⟩] 1).setApplied ⟨3, 4⟩
def lmD5 : State Nat := lmD4.clear ⟨2, 3⟩

theorem lmD5_run : Run lm0 lmD5 [⟨1, 1⟩, ⟨2, 3⟩, ⟨2, 2⟩, ⟨3, 4⟩] [.append [⟨1, 1, 10⟩, ⟨2, 3, 20⟩] 0] := by
  have h1 : Run lm0 lmD1 [⟨1, 1⟩, ⟨2, 3⟩] [] :=
    .append lm0_start [⟨1, 1, 10⟩, ⟨2, 3, 20⟩] 0 1
      ⟨rfl, rfl, trivial⟩ (by simp) (by decide) (by
        intro _ _ e he hle
        simp only [List.mem_cons, List.not_mem_nil, or_false] at he
        have h0 : (init lm0).applied.index = 0 := rfl
        rw [h0] at hle
        rcases he with rfl | rfl <;> simp at hle)
  have h2 := Run.roundStart h1 rfl
  have h3 : Run lm0 lmD2 [⟨1, 1⟩, ⟨2, 3⟩] [.append [⟨1, 1, 10⟩, ⟨2, 3, 20⟩] 0] :=
    .flush h2 _ [] ⟨0, 0⟩ 2 false rfl (by
      intro j hj; simp only [List.mem_singleton] at hj; exact ⟨_, _, hj, by simp⟩) rfl (by decide)
  have h4 : Run lm0 lmD3 [⟨1, 1⟩, ⟨2, 3⟩] [.append [⟨1, 1, 10⟩, ⟨2, 3, 20⟩] 0] := .roundEnd h3 ⟨2, 3⟩ rfl
  have h5 := Run.append h4 [⟨2, 2, 21⟩, ⟨3, 4, 30⟩] 1 2 ⟨rfl, rfl, trivial⟩ (by simp) (by decide) (by
        intro _ _ e he hle
        simp only [List.mem_cons, List.not_mem_nil, or_false] at he
        have h0 : lmD3.applied.index = 0 := rfl
        rw [h0] at hle
        rcases he with rfl | rfl <;> simp at hle)
  have h6 : Run lm0 lmD4 [⟨1, 1⟩, ⟨2, 3⟩, ⟨2, 2⟩, ⟨3, 4⟩] [.append [⟨1, 1, 10⟩, ⟨2, 3, 20⟩] 0] :=
    .setApplied h5 ⟨3, 4⟩ (by decide) (by decide)
  refine .clear h6 ⟨2, 3⟩ (by decide) (Or.inr ?_)
  intro e rest hmem _ es cid hjob x hx
  have hm : lmD4.mem = [⟨1, 1, 10⟩, ⟨2, 2, 21⟩, ⟨3, 4, 30⟩] := rfl
  have hq : lmD4.queue = [.truncSuffix 1 1, .append [⟨2, 2, 21⟩, ⟨3, 4, 30⟩] 1] := rfl
  rw [hm] at hmem
  cases hmem
  rw [hq] at hjob
  simp only [List.mem_cons, Job.append.injEq, List.not_mem_nil, or_false, reduceCtorEq, false_or] at hjob
  obtain ⟨rfl, rfl⟩ := hjob
  simp only [List.mem_cons, List.not_mem_nil, or_false] at hx
  rcases hx with rfl | rfl <;> simp

/-- **C17, missing part.** `_disk_id` is the id (2, term 3) of an entry that is no longer in the log. Since
ids are compared by term first, clear_memory_logs removes the entry (2, term 2) that replaced it from
memory although it is not on disk yet: get_entry(2) and get_term(2) answer with the entry that was
replaced. -/
theorem stale_entry_after_clear :
    ∃ s ev dn, Run lm0 s ev dn ∧ s.err = false ∧ s.applied = ⟨3, 4⟩ ∧ (⟨2, 3⟩ : Id) ∈ s.clears ∧
      s.getEntry 2 = some ⟨2, 2, 21⟩ ∧ (s.clear ⟨2, 3⟩).getEntry 2 = some ⟨2, 3, 20⟩ ∧ (s.clear ⟨2, 3⟩).getTerm 2 = 3 :=
  ⟨lmD5, _, _, lmD5_run, by decide, by decide, by decide, by decide, by decide, by decide⟩

/-- Without a lower term replacing a higher one the ids do increase: the hypothesis is met by `lmC`. -/
example : Increasing [⟨1, 1⟩, ⟨2, 1⟩, ⟨3, 1⟩] ∧ (⟨0, 0⟩ : Id) ∈ lmC.clears := by
  constructor
  · unfold Increasing; decide
  · decide

/-! ### C18 -/

theorem at_drop {f : Int} {L : List (Ent α)} {k i : Int} (hk : f ≤ k) (hi : k ≤ i) :
    (⟨k, L.drop (k - f).toNat⟩ : Sto α).at i = (⟨f, L⟩ : Sto α).at i := by
  unfold Sto.at
  rw [if_pos hi, if_pos (by show f ≤ i; omega)]
  dsimp only
  rw [List.getElem?_drop]
  congr 1
  omega

/-- **C18.** A snapshot with id `m` is recorded; `SnapOk` says that it is not older than the log's beginning,
that the orders of ids and of indexes agree on it and the applied id, and that it has the term of the log
if it is at an applied index. Then the log's first index is at most `m.index + 1` and never goes back, every
index that is no longer in the log is covered by the snapshot, every entry above `m.index` is still readable
unless the log's entry at `m.index` has another term, and in that case the log is empty and starts behind
the snapshot. -/
theorem snapshot_compaction {a : Sto α} {s : State α} {ev dn} (r : Run a s ev dn) (he : s.err = false) (m : Id)
    (hm : s.snap.index < m.index) (hok : SnapOk s m) :
    s.first ≤ (s.setSnapshot m).first ∧ (s.setSnapshot m).first ≤ m.index + 1 ∧ (s.setSnapshot m).snap = m ∧
    (s.setSnapshot m).getTerm m.index = m.term ∧
    (∀ i e, s.getEntry i = some e → (s.setSnapshot m).getEntry i = none →
      i ≤ m.index ∨ ∃ x, s.getEntry m.index = some x ∧ x.term ≠ m.term) ∧
    ((∀ x, s.getEntry m.index = some x → x.term = m.term) →
      ∀ i, m.index < i → (s.setSnapshot m).getEntry i = s.getEntry i) ∧
    (∀ x, s.getEntry m.index = some x → x.term ≠ m.term →
      (s.setSnapshot m).first = m.index + 1 ∧ (s.setSnapshot m).last = m.index ∧
      ∀ i, (s.setSnapshot m).getEntry i = none) := by
  obtain ⟨L, hg⟩ := r.good he
  have hinv := hg.inv
  have hpos := hinv.pos
  have hlen := hinv.len
  have hbase := hok.base
  have hmt := hok.term
  have hsl := hinv.snapLast
  have hs0 : 0 ≤ s.snap.index := by
    rcases hinv.snapPos with hs | hs
    · rw [hs]; exact Int.le_refl 0
    · omega
  obtain ⟨L', h', hres⟩ := hinv.toInv0.setSnapshot m hm hok
  have hG : ∀ i, s.getEntry i = (⟨s.first, L⟩ : Sto α).at i := fun i => hinv.toCore.getEntry i
  have hA : ∀ i, (s.setSnapshot m).getEntry i = (⟨(s.setSnapshot m).first, L'⟩ : Sto α).at i := fun i => h'.toCore.getEntry i
  have hsnap : (s.setSnapshot m).snap = m := by
    rcases setSnapshot_ids s m with ⟨h1, _⟩ | ⟨_, h1, _⟩
    · exfalso
      unfold State.setSnapshot State.truncatePrefix State.resetLog at h1
      rw [if_neg (by omega)] at h1
      dsimp only at h1
      split at h1
      · dsimp only at h1; rw [h1] at hm; omega
      · split at h1
        · split at h1 <;> (dsimp only at h1; rw [h1] at hm; omega)
        · dsimp only at h1; rw [h1] at hm; omega
    · exact h1
  have hterm : (s.setSnapshot m).getTerm m.index = m.term := by
    have h2 := h'.toInv0.getTerm m.index
    rw [hsnap] at h2
    cases hat : (logOf (s.setSnapshot m) L').at m.index with
    | none =>
      rw [hat] at h2
      dsimp only at h2
      rw [if_neg (by omega), if_pos rfl] at h2
      exact h2
    | some e =>
      rw [hat] at h2
      obtain ⟨hmm, hi⟩ := (Sto.at_iff (a := logOf (s.setSnapshot m) L') h'.idx).mp hat
      have := h'.snapTerm e hmm (by rw [hsnap]; exact hi)
      rw [hsnap] at this
      exact h2.trans this
  -- a term at m.index can only come from an entry
  have hnov : m.index ≠ s.virt.index := by
    rcases hinv.virtOk with hv | ⟨hv, _, _, hv3, _⟩
    · rw [hv]; show m.index ≠ 0; omega
    · omega
  have htm : ∀ x, s.getEntry m.index = some x → s.getTerm m.index = x.term := by
    intro x hx
    rw [hinv.toInv0.getTerm]
    rw [hG] at hx
    show (match (⟨s.first, L⟩ : Sto α).at m.index with | some e => e.term | none => _) = _
    rw [hx]
  have htn : s.getEntry m.index = none → s.getTerm m.index = 0 := by
    intro hx
    rw [hinv.toInv0.getTerm]
    rw [hG] at hx
    show (match (⟨s.first, L⟩ : Sto α).at m.index with | some e => e.term | none => _) = _
    rw [hx]
    dsimp only
    rw [if_neg (by omega), if_neg (by omega), if_neg hnov]
  have htp : ∀ x, s.getEntry m.index = some x → 1 ≤ x.term := by
    intro x hx
    rw [hG] at hx
    exact hinv.termPos x ((Sto.at_iff hinv.idx).mp hx).1
  have hunf : ∀ s', s' = s.setSnapshot m →
      s' = (let s1 : State α := { s with snap := m, applied := if s.applied.lt m then m else s.applied }
            if s.getTerm m.index = 0 then { s1 with virt := m }.truncatePrefix (m.index + 1)
            else if s.getTerm m.index = m.term then
              if s.snap.index > 0 then { s1 with virt := s.snap }.truncatePrefix (s.snap.index + 1) else s1
            else { s1 with virt := m }.resetLog (m.index + 1)) := by
    intro s' hs'
    rw [hs']
    unfold State.setSnapshot
    rw [if_neg (by omega)]
  have hu := hunf _ rfl
  cases hres with
  | beyond hz =>
    have hfirst : (s.setSnapshot m).first = m.index + 1 := by
      rw [hu]; dsimp only; rw [if_pos hz]; rfl
    rw [hfirst] at hA ⊢
    have hkeep : ∀ i, m.index < i → (s.setSnapshot m).getEntry i = s.getEntry i := by
      intro i hi
      rw [hA, hG, at_drop (by omega) (by omega)]
    refine ⟨by omega, by omega, hsnap, hterm, ?_, fun _ => hkeep, ?_⟩
    · intro i e h1 h2
      by_cases hi : i ≤ m.index
      · exact Or.inl hi
      · rw [hkeep i (by omega), h1] at h2; simp at h2
    · intro x hx _
      have h3 := htm x hx
      have h4 := htp x hx
      omega
  | same hz hz' =>
    have hsf := hinv.snapFirst hz'
    have hfirst : (s.setSnapshot m).first = s.snap.index + 1 := by
      rw [hu]; dsimp only; rw [if_neg (by omega), if_pos hz, if_pos hz']; rfl
    rw [hfirst] at hA ⊢
    have hkeep : ∀ i, s.snap.index < i → (s.setSnapshot m).getEntry i = s.getEntry i := by
      intro i hi
      rw [hA, hG, at_drop (by omega) (by omega)]
    refine ⟨by omega, by omega, hsnap, hterm, ?_, fun _ i hi => hkeep i (by omega), ?_⟩
    · intro i e h1 h2
      by_cases hi : i ≤ m.index
      · exact Or.inl hi
      · rw [hkeep i (by omega), h1] at h2; simp at h2
    · intro x hx hne
      have h3 := htm x hx
      omega
  | sameFirst hz hz' =>
    have hfirst : (s.setSnapshot m).first = s.first := by
      rw [hu]; dsimp only; rw [if_neg (by omega), if_pos hz, if_neg (by omega)]
    rw [hfirst] at hA ⊢
    have hkeep : ∀ i, (s.setSnapshot m).getEntry i = s.getEntry i := by
      intro i
      rw [hA, hG]
    refine ⟨by omega, by omega, hsnap, hterm, ?_, fun _ i hi => hkeep i, ?_⟩
    · intro i e h1 h2
      rw [hkeep i, h1] at h2; simp at h2
    · intro x hx hne
      have h3 := htm x hx
      omega
  | differs hz hz' =>
    have hfirst : (s.setSnapshot m).first = m.index + 1 := by
      rw [hu]; dsimp only; rw [if_neg hz, if_neg hz']; rfl
    have hlast : (s.setSnapshot m).last = m.index := by
      rw [hu]; dsimp only; rw [if_neg hz, if_neg hz']
      show m.index + 1 - 1 = m.index
      omega
    rw [hfirst] at hA ⊢
    obtain ⟨x, hx⟩ : ∃ x, s.getEntry m.index = some x := by
      cases hx : s.getEntry m.index with
      | none => exact absurd (htn hx) hz
      | some x => exact ⟨x, rfl⟩
    have h3 := htm x hx
    have hnone : ∀ i, (s.setSnapshot m).getEntry i = none := by
      intro i
      rw [hA]
      unfold Sto.at
      split <;> simp
    refine ⟨by omega, by omega, hsnap, hterm, ?_, ?_, fun _ _ _ => ⟨rfl, hlast, hnone⟩⟩
    · intro i e h1 h2
      exact Or.inr ⟨x, hx, by omega⟩
    · intro hall
      have := hall x hx
      omega

/-- A snapshot with an id that is not newer changes nothing. -/
theorem old_snapshot_ignored (s : State α) (m : Id) (hm : m.index ≤ s.snap.index) : s.setSnapshot m = s := by
  unfold State.setSnapshot; rw [if_pos hm]

/-- An installed snapshot beyond the log, and one that contradicts it. -/
example : SnapOk lm1 ⟨5, 4⟩ ∧ (lm1.setSnapshot ⟨5, 4⟩).first = 6 ∧ SnapOk lm1 ⟨2, 4⟩ ∧
    (lm1.setSnapshot ⟨2, 4⟩).first = 3 ∧ (lm1.setSnapshot ⟨2, 4⟩).last = 2 ∧
    SnapOk lm1 ⟨2, 3⟩ ∧ (lm1.setSnapshot ⟨2, 3⟩).getEntry 3 = some ⟨3, 3, 30⟩ :=
  ⟨⟨by decide, by decide, by decide, by decide⟩, by decide, ⟨by decide, by decide, by decide, by decide⟩, by decide,
    by decide, ⟨by decide, by decide, by decide, by decide⟩, by decide⟩

/-! ### C45 -/

/-- **C45.** The storage is called within its contract (C21, C23), and holds exactly the effect of the jobs
done so far, in the order in which they were queued, as long as no error occurred; what is left in the queue
leads to the log that get_entry shows. -/
theorem storage_is_jobs_done {a : Sto α} {s : State α} {ev dn} (r : Run a s ev dn) (he : s.err = false) :
    a.runAll dn = some s.store ∧
    ∃ b, s.store.runAll s.queue = some b ∧ b.first = s.first ∧ b.last = s.last ∧ ∀ i, b.at i = s.getEntry i := by
  obtain ⟨L, hg⟩ := r.good he
  exact ⟨hg.done, ⟨s.first, L⟩, hg.inv.pend, rfl, hg.inv.log_last, fun i => (hg.inv.toCore.getEntry i).symm⟩

/-- **C45.** When the disk thread writes a batch of appends: if their closures run with OK, no error has
occurred up to then, all entries of the batch are in the storage, and the storage holds the effect of every
job queued before. If an error occurred before or during the write, all the closures run with an error. No
other closures run, and they run in the order of the appends.
Partial: appends without entries of their own are not covered, see `ok_without_durability`. -/
theorem stable_closures_partial {a : Sto α} {s : State α} {ev dn} (r : Run a s ev dn)
    (js rest : List (Job α)) (l : Id) (n : Nat) (late : Bool) (hq : s.queue = js ++ rest) (hj : AllAppends js)
    (hr : s.round = some l) (hn : n ≤ (jobEnts js).length) :
    (∃ b : Bool, (s.flush js rest l n late).ran = s.ran ++ (jobCids js).map (fun c => (c, b)) ∧
      (b = true → (s.flush js rest l n late).err = false ∧
        a.runAll (dn ++ js) = some (s.flush js rest l n late).store ∧
        ∀ e ∈ jobEnts js, (s.flush js rest l n late).store.at e.index = some e) ∧
      (s.err = true ∨ n < (jobEnts js).length ∨ late = true → b = false)) := by
  refine ⟨!(s.flush js rest l n late).err, flush_ran s js rest l n late, ?_, ?_⟩
  · intro hb
    have hb' : (s.flush js rest l n late).err = false := by simpa using hb
    have r' := Run.flush r js rest l n late hq hj hr hn
    obtain ⟨L, hg⟩ := r'.good hb'
    refine ⟨hb', hg.done, ?_⟩
    intro e hem
    rw [Sto.at_iff hg.inv.sto.idx]
    have hes : s.err = false := by
      cases hs : s.err with
      | false => rfl
      | true => simp [State.flush, hs] at hb'
    have hn' : n = (jobEnts js).length := by simp [State.flush, hes] at hb'; exact hb'.1
    have hlate : late = false := by simp [State.flush, hes] at hb'; exact hb'.2
    subst hn' hlate
    obtain ⟨L0, hg0⟩ := r.good hes
    obtain ⟨_, h2, _⟩ := hg0.inv.flushOk hes hq hj l
    rw [h2]
    exact ⟨List.mem_append_right _ hem, rfl⟩
  · intro h
    rcases h with h | h | h
    · simp [State.flush, h]
    · cases hs : s.err with
      | true => simp [State.flush, hs]
      | false => simp [State.flush, hs]; intro h1; omega
    · simp [State.flush, h]

/-- The closure of an append after an error runs with an error. -/
theorem append_after_error (s : State α) (es : List (Ent α)) (cid : Nat) (he : s.err = true) :
    s.append es cid = { s with ran := s.ran ++ [(cid, false)] } ∧
    ∀ vs, s.appendLeader vs cid = { s with ran := s.ran ++ [(cid, false)] } := by
  unfold State.append State.appendLeader
  rw [he]
  exact ⟨rfl, fun _ => rfl⟩

/-- The hypotheses of `stable_closures_partial` are met by the first flush of `lmD2`. -/
example : lmD1.roundStart.queue = [.append [⟨1, 1, 10⟩, ⟨2, 3, 20⟩] 0] ∧ lmD1.roundStart.round = some ⟨0, 0⟩ ∧
    lmD2.ran = [(0, true)] ∧ lmD2.store.at 2 = some ⟨2, 3, 20⟩ := ⟨rfl, rfl, rfl, rfl⟩

/-- Two requests with the same entry: the second one is a duplicate of the first. -/
def lmE1 : State Nat := ((init lm0).append [⟨1, 1, 10⟩] 0).append [⟨1, 1, 10⟩] 1
/-- The write of the first fails, ... -/
def lmE2 : State Nat := lmE1.roundStart.flush [.append [⟨1, 1, 10⟩] 0] [.append [] 1] ⟨0, 0⟩ 0 false
/-- ... then the second is done. -/
def lmE3 : State Nat := lmE2.execOk (.append [] 1) [] ⟨0, 0⟩

theorem lmE3_run : Run lm0 lmE3 [⟨1, 1⟩] [.append [⟨1, 1, 10⟩] 0, .append [] 1] := by
  have h1 := Run.append lm0_start [⟨1, 1, 10⟩] 0 1 ⟨rfl, trivial⟩ (by simp) (by decide) (by
        intro _ _ e he hle
        simp only [List.mem_cons, List.not_mem_nil, or_false] at he
        have h0 : (init lm0).applied.index = 0 := rfl
        rw [h0] at hle
        subst he; simp at hle)
  have h2 := Run.append h1 [⟨1, 1, 10⟩] 1 1 ⟨rfl, trivial⟩ (by simp) (by decide) (by
        intro _ _ e he hle
        simp only [List.mem_cons, List.not_mem_nil, or_false] at he
        have h0 : ((init lm0).append [⟨1, 1, 10⟩] 0).applied.index = 0 := rfl
        rw [h0] at hle
        subst he; simp at hle)
  have h3 := Run.roundStart h2 rfl
  have h4 := Run.flush h3 [.append [⟨1, 1, 10⟩] 0] [.append [] 1] ⟨0, 0⟩ 0 false rfl (by
      intro j hj; simp only [List.mem_singleton] at hj; exact ⟨_, _, hj, by simp⟩) rfl (by decide)
  exact Run.execOk h4 (.append [] 1) [] ⟨0, 0⟩ rfl (by intro es c h; cases h; rfl) rfl

/-- **C45, missing part.** The entry (1, term 1) is sent twice. The second request adds nothing, so its
closure is queued without entries. Writing the entry fails, the first closure gets an error; the second,
for the same entry, then runs with OK (disk_thread sets no status for a job without entries), and the
follower acknowledges an entry that is not in its storage. -/
theorem ok_without_durability :
    ∃ s ev dn, Run lm0 s ev dn ∧ s.err = true ∧ s.ran = [(0, false), (1, true)] ∧ s.store.at 1 = none :=
  ⟨lmE3, _, _, lmE3_run, rfl, rfl, rfl⟩

/-- **C45, missing part.** The second way: entries at or below the applied index are acknowledged at once,
and a heartbeat can advance the applied index beyond what is on disk. -/
theorem ok_before_disk :
    ∃ s ev dn, Run lm0 s ev dn ∧ s.err = false ∧ s.store.at 1 = none ∧
      (s.append [⟨1, 1, 10⟩] 1).ran = s.ran ++ [(1, true)] :=
  ⟨lmC1.setApplied ⟨3, 1⟩, _, _, .setApplied lmC1_run ⟨3, 1⟩ (by decide) (by decide), by decide, by decide, by decide⟩

/-! ### C51: starting with a gap between snapshot and log -/

/-- **C51.** After NodeImpl::init has read the log and recorded the snapshot `m` of the snapshot storage (if
any), it goes on only if the check succeeds, and then, provided the snapshot reaches the log's beginning,
every index above the snapshot up to the last one is readable; without a snapshot the log begins at 1.
Partial: the proviso is not checked, see `start_with_gap`. -/
theorem start_without_gap_partial {a : Sto α} (ha : StoOk a) (ht : ∀ e ∈ a.ents, 1 ≤ e.term) :
    ((init a).consistent = true → ∀ i, 1 ≤ i → i ≤ (init a).last → ∃ e, (init a).getEntry i = some e) ∧
    (∀ m : Id, 0 < m.index → 1 ≤ m.term → a.first - 1 ≤ m.index →
      ((init a).setSnapshot m).consistent = true ∧
      ∀ i, m.index < i → i ≤ ((init a).setSnapshot m).last → ∃ e, ((init a).setSnapshot m).getEntry i = some e) := by
  have hpos := ha.pos
  constructor
  · intro hc i h1 h2
    have hf : a.first = 1 := by
      unfold State.consistent at hc
      rw [if_pos (show (init a).snap = ⟨0, 0⟩ from rfl)] at hc
      exact of_decide_eq_true hc
    have hinv := init_inv ha ht hf
    rw [hinv.toCore.getEntry]
    refine Sto.at_some (a := logOf (init a) a.ents) ?_ ?_
    · show a.first ≤ i; omega
    · rw [hinv.log_last]; exact h2
  · intro m hm hmt hb
    have hok : SnapOk (init a) m := by
      refine ⟨hmt, hb, ?_, ?_⟩
      · show Id.lt ⟨0, 0⟩ m = decide ((0 : Int) < m.index)
        rw [show decide ((0 : Int) < m.index) = true by simpa using hm, Id.lt_iff]
        left; show (0 : Int) < m.term; omega
      · intro h
        have h' : m.index ≤ 0 := h
        omega
    obtain ⟨L, h', hres⟩ := (init_inv0 ha ht).setSnapshot m hm hok
    have hsnap : ((init a).setSnapshot m).snap = m := by
      unfold State.setSnapshot State.truncatePrefix State.resetLog
      rw [if_neg (by show ¬ m.index ≤ 0; omega)]
      dsimp only
      split
      · rfl
      · split
        · split <;> rfl
        · rfl
    have h1 := h'.snapLast
    have h2 := h'.snapFirst (by rw [hsnap]; exact hm)
    rw [hsnap] at h1 h2
    refine ⟨?_, ?_⟩
    · unfold State.consistent
      rw [hsnap, if_neg (by intro h; rw [h] at hm; exact absurd hm (by decide))]
      simp only [Bool.and_eq_true, decide_eq_true_eq]
      omega
    · intro i hi hl
      rw [h'.toCore.getEntry]
      refine Sto.at_some (a := logOf ((init a).setSnapshot m) L) ?_ ?_
      · show ((init a).setSnapshot m).first ≤ i; omega
      · rw [h'.log_last]; exact hl

example : StoOk (⟨3, [⟨3, 1, 30⟩, ⟨4, 1, 40⟩]⟩ : Sto Nat) ∧
    ((init (⟨3, [⟨3, 1, 30⟩, ⟨4, 1, 40⟩]⟩ : Sto Nat)).setSnapshot ⟨2, 1⟩).getEntry 4 = some ⟨4, 1, 40⟩ :=
  ⟨⟨by decide, ⟨rfl, rfl, trivial⟩⟩, by decide⟩

/-- **C51, missing part.** A log that begins at 5 and a snapshot at 2: get_term(2) is 0 as if the snapshot
were beyond the log, truncate_prefix sets the first index back to 3 (its CHECK only logs), and
check_consistency finds nothing wrong; entries 3 and 4 do not exist. -/
theorem start_with_gap :
    ∃ a : Sto Nat, StoOk a ∧ ((init a).setSnapshot ⟨2, 1⟩).consistent = true ∧ ((init a).setSnapshot ⟨2, 1⟩).first = 3 ∧
      ((init a).setSnapshot ⟨2, 1⟩).last = 6 ∧ ((init a).setSnapshot ⟨2, 1⟩).getEntry 3 = none ∧
      ((init a).setSnapshot ⟨2, 1⟩).getEntry 4 = none ∧ ((init a).setSnapshot ⟨2, 1⟩).getEntry 5 = some ⟨5, 1, 50⟩ :=
  ⟨⟨5, [⟨5, 1, 50⟩, ⟨6, 1, 60⟩]⟩, ⟨by decide, ⟨rfl, rfl, trivial⟩⟩, by decide, by decide, by decide, by decide, by decide,
    by decide⟩

/-! ### C52: last_log_id(true) -/

/-- **C52.** last_log_id(true) is answered at once with the snapshot's id if the log ends there, and then the
log's last entry, if there is one, has this id. Otherwise a job is queued for the disk thread that carries
(as a ghost) the id of the last entry at this moment, and at any later moment at which the disk thread
comes to such a job, the storage ends with the entry of that id, and what the disk thread answers (its
`last_id`) is this id, provided that no storage error occurred and
that the ids of all entries ever appended were increasing. Partial: because of the last proviso, see
`last_log_id_stale`. -/
theorem last_log_id_partial {a : Sto α} {s : State α} {ev dn} (r : Run a s ev dn) (he : s.err = false) :
    (s.last = s.snap.index → ∀ e, s.getEntry s.last = some e → entId e = s.snap) ∧
    (s.last ≠ s.snap.index → ∀ cid, ∃ e, s.getEntry s.last = some e ∧
      (s.askLastId cid).queue = s.queue ++ [.lastId cid (entId e)]) ∧
    (∀ cid w rest, s.queue = .lastId cid w :: rest → ∃ e, s.store.at w.index = some e ∧ entId e = w ∧ s.store.last = w.index) ∧
    (Increasing ev → ∀ cid w rest l, s.queue = .lastId cid w :: rest → s.round = some l → l = w) := by
  obtain ⟨L, hg⟩ := r.good he
  have hI := hg.inv
  refine ⟨?_, ?_, ?_, ?_⟩
  · intro h e hent
    rw [hI.toCore.getEntry] at hent
    obtain ⟨hm, hidx⟩ := (Sto.at_iff (a := logOf s L) hI.idx).mp hent
    have := hI.snapTerm e hm (by omega)
    unfold entId
    rw [hidx, this, h]
  · intro h cid
    have hlen := hI.len
    have hge : s.first ≤ s.last := by
      rcases hI.snapPos with hs | ⟨hs, _⟩
      · have h1 := r.first1 (by rw [hs])
        rw [hs] at h
        have hne' : s.last ≠ 0 := h
        omega
      · have h1 := hI.snapFirst hs
        have h2 := hI.snapLast
        omega
    obtain ⟨e, hat⟩ := Sto.at_some (a := logOf s L) (i := s.last) hge (by rw [hI.log_last]; omega)
    refine ⟨e, by rw [hI.toCore.getEntry]; exact hat, ?_⟩
    have hidx := ((Sto.at_iff (a := logOf s L) hI.idx).mp hat).2
    unfold State.askLastId State.lastLogId
    rw [if_pos hge, hI.toInv0.getTerm, hat]
    unfold entId
    rw [hidx]
  · intro cid w rest hq
    obtain ⟨b, hb, hlast⟩ := r.askDisk he [] cid w rest hq
    cases hb
    cases hl : s.store.ents.getLast? with
    | none => rw [hl] at hlast; cases hlast
    | some e =>
      rw [hl] at hlast
      have hw : entId e = w := Option.some.inj hlast
      have hm := List.mem_of_getLast? hl
      rw [List.getLast?_eq_getElem?] at hl
      have hi := MemLog.consec_get _ _ hI.sto.idx _ _ hl
      have hp := consec_mem hI.sto.idx hm
      have hle : e.index = s.store.last := by unfold Sto.last; omega
      have hwi : w.index = e.index := by rw [← hw]; rfl
      exact ⟨e, (Sto.at_iff hI.sto.idx).mpr ⟨hm, by omega⟩, hw, by omega⟩
  · intro hinc cid w rest l hq hr
    have := (r.last he hinc L hI).asks [] cid w rest hq
    unfold State.cur at this
    rw [hr] at this
    exact this

/-- **C52.** last_log_id(false): the id of the last entry, or the snapshot's id if there is no entry, and then the
log ends at the snapshot. -/
theorem last_log_id_memory {a : Sto α} {s : State α} {ev dn} (r : Run a s ev dn) (he : s.err = false) :
    (s.first ≤ s.last → ∃ e, s.getEntry s.last = some e ∧ s.lastLogId = entId e) ∧
    (s.last < s.first → s.lastLogId = s.snap ∧ s.snap.index = s.last) := by
  obtain ⟨L, hg⟩ := r.good he
  have hI := hg.inv
  constructor
  · intro hge
    obtain ⟨e, hat⟩ := Sto.at_some (a := logOf s L) (i := s.last) hge (by rw [hI.log_last]; omega)
    refine ⟨e, by rw [hI.toCore.getEntry]; exact hat, ?_⟩
    have hidx := ((Sto.at_iff (a := logOf s L) hI.idx).mp hat).2
    unfold State.lastLogId
    rw [if_pos hge, hI.toInv0.getTerm, hat]
    unfold entId
    rw [hidx]
  · intro hlt
    have hlen := hI.len
    refine ⟨?_, ?_⟩
    · unfold State.lastLogId; rw [if_neg (by omega)]
    · rcases hI.snapPos with hs | ⟨hs, _⟩
      · have h1 := r.first1 (by rw [hs])
        rw [hs]
        show (0 : Int) = s.last
        omega
      · have h1 := hI.snapFirst hs
        have h2 := hI.snapLast
        omega

/-- Both cases occur: the empty log, and one of three entries. -/
example : (init lm0 : State Nat).last < (init lm0 : State Nat).first ∧ lmC1.first ≤ lmC1.last := by decide

/-- **C16.** Whatever the state and the entries a leader sends: an append never asks the storage to remove an entry
at or below the applied index. -/
theorem applied_never_truncated (s : State α) (es : List (Ent α)) (cid : Nat) :
    ∃ js, (s.append es cid).queue = s.queue ++ js ∧ (∀ k t, Job.truncSuffix k t ∈ js → s.applied.index ≤ k) := by
  unfold State.append
  split
  · exact ⟨[], by simp, by simp⟩
  · split
    · rename_i f b _ _
      unfold State.check
      by_cases h1 : f.index > s.last + 1
      · rw [if_pos h1]; exact ⟨[], by simp, by simp⟩
      rw [if_neg h1]
      by_cases h2 : b.index ≤ s.applied.index
      · rw [if_pos h2]; exact ⟨[], by simp, by simp⟩
      rw [if_neg h2]
      by_cases h3 : f.index = s.last + 1
      · rw [if_pos h3]; exact ⟨[.append es cid], rfl, by simp⟩
      rw [if_neg h3]
      cases hu : s.unmatched es with
      | nil => exact ⟨[.append [] cid], rfl, by simp⟩
      | cons e rest =>
        dsimp only
        by_cases h4 : e.index ≤ s.last
        · rw [if_pos h4]
          unfold State.truncateSuffix
          by_cases h5 : e.index - 1 < s.applied.index
          · rw [if_pos h5]; exact ⟨[.append (e :: rest) cid], rfl, by simp⟩
          · rw [if_neg h5]
            dsimp only
            refine ⟨[.truncSuffix (e.index - 1) _, .append (e :: rest) cid], by simp only [State.enqueue, List.append_assoc]; rfl, ?_⟩
            intro k t hm
            simp only [List.mem_cons, List.not_mem_nil, or_false] at hm
            rcases hm with hm | hm
            · cases hm; omega
            · cases hm
        · rw [if_neg h4]; exact ⟨[.append (e :: rest) cid], rfl, by simp⟩
    · exact ⟨[.append [] cid], rfl, by simp⟩

/-- An append that does remove a suffix. -/
example : ((init (⟨1, [⟨1, 1, 10⟩, ⟨2, 1, 20⟩]⟩ : Sto Nat)).append [⟨2, 2, 21⟩] 0).queue =
    [.truncSuffix 1 1, .append [⟨2, 2, 21⟩] 0] := by rfl

/-- The hypotheses are met: `lmC1` (three entries of term 1) with a question behind them. -/
example : ∃ s : State Nat, Run lm0 s [⟨1, 1⟩, ⟨2, 1⟩, ⟨3, 1⟩] [.append [⟨1, 1, 10⟩, ⟨2, 1, 20⟩, ⟨3, 1, 30⟩] 0] ∧ s.err = false ∧
    Increasing [⟨1, 1⟩, ⟨2, 1⟩, ⟨3, 1⟩] ∧ s.queue = [.lastId 7 ⟨3, 1⟩] ∧ s.round = some ⟨3, 1⟩ := by
  have h1 := Run.lastId lmC1_run 7 (by decide)
  have h2 := Run.roundStart h1 rfl
  have h3 := Run.flush h2 [.append [⟨1, 1, 10⟩, ⟨2, 1, 20⟩, ⟨3, 1, 30⟩] 0] [.lastId 7 ⟨3, 1⟩] ⟨0, 0⟩ 3 false rfl (by
      intro j hj; simp only [List.mem_singleton] at hj; exact ⟨_, _, hj, by simp⟩) rfl (by decide)
  exact ⟨_, h3, rfl, by unfold Increasing; decide, rfl, rfl⟩

/-- The leader of term 4 replaces (2, term 3) by (2, term 2), and this is written. -/
def lmG1 : State Nat := lmD3.append [⟨2, 2, 21⟩] 1
def lmG2 : State Nat := lmG1.roundStart.execOk (.truncSuffix 1 1) [.append [⟨2, 2, 21⟩] 1] ⟨2, 3⟩
def lmG3 : State Nat := lmG2.flush [.append [⟨2, 2, 21⟩] 1] [] ⟨1, 1⟩ 1 false
def lmG : State Nat := ((lmG3.roundEnd ⟨2, 2⟩).askLastId 7).roundStart

theorem lmG_run : ∃ ev dn, Run lm0 lmG ev dn := by
  have h1 : Run lm0 lmD1 [⟨1, 1⟩, ⟨2, 3⟩] [] :=
    .append lm0_start [⟨1, 1, 10⟩, ⟨2, 3, 20⟩] 0 1
      ⟨rfl, rfl, trivial⟩ (by simp) (by decide) (by
        intro _ _ e he hle
        simp only [List.mem_cons, List.not_mem_nil, or_false] at he
        have h0 : (init lm0).applied.index = 0 := rfl
        rw [h0] at hle
        rcases he with rfl | rfl <;> simp at hle)
  have h2 := Run.roundStart h1 rfl
  have h3 : Run lm0 lmD2 [⟨1, 1⟩, ⟨2, 3⟩] [.append [⟨1, 1, 10⟩, ⟨2, 3, 20⟩] 0] :=
    .flush h2 _ [] ⟨0, 0⟩ 2 false rfl (by
      intro j hj; simp only [List.mem_singleton] at hj; exact ⟨_, _, hj, by simp⟩) rfl (by decide)
  have h4 : Run lm0 lmD3 [⟨1, 1⟩, ⟨2, 3⟩] [.append [⟨1, 1, 10⟩, ⟨2, 3, 20⟩] 0] := .roundEnd h3 ⟨2, 3⟩ rfl
  have h5 : Run lm0 lmG1 _ _ := Run.append h4 [⟨2, 2, 21⟩] 1 2 ⟨rfl, trivial⟩ (by simp) (by decide) (by
        intro _ _ e he hle
        simp only [List.mem_cons, List.not_mem_nil, or_false] at he
        have h0 : lmD3.applied.index = 0 := rfl
        rw [h0] at hle
        subst he; simp at hle)
  have h6 : Run lm0 lmG2 _ _ := Run.execOk (Run.roundStart h5 rfl) (.truncSuffix 1 1) [.append [⟨2, 2, 21⟩] 1] ⟨2, 3⟩ rfl
    (by intro es c h; cases h) rfl
  have h7 : Run lm0 lmG3 _ _ := Run.flush h6 [.append [⟨2, 2, 21⟩] 1] [] ⟨1, 1⟩ 1 false rfl (by
      intro j hj; simp only [List.mem_singleton] at hj; exact ⟨_, _, hj, by simp⟩) rfl (by decide)
  have h8 := Run.lastId (Run.roundEnd h7 ⟨2, 2⟩ rfl) 7 (by decide)
  exact ⟨_, _, Run.roundStart h8 rfl⟩

/-- **C52, missing part.** The log is (1, term 1), (2, term 2), all of it on disk, but set_disk_id ignored
(2, term 2) because it is smaller than the id (2, term 3) that was replaced; last_log_id(true), which
elections use, answers (2, term 3). -/
theorem last_log_id_stale :
    ∃ (s : State Nat) (ev : List Id) (dn : List (Job Nat)), Run lm0 s ev dn ∧ s.err = false ∧ s.last = 2 ∧
      s.getEntry 2 = some ⟨2, 2, 21⟩ ∧ s.store.at 2 = some ⟨2, 2, 21⟩ ∧ s.queue = [.lastId 7 ⟨2, 2⟩] ∧ s.round = some ⟨2, 3⟩ :=
  have ⟨ev, dn, h⟩ := lmG_run
  ⟨lmG, ev, dn, h, by decide, by decide, by decide, by decide, rfl, by decide⟩

end Braft.Props
