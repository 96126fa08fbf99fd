import Verif.Snap.Copier
/-
The invariant of the copier (Snap/Copier.lean).
-/
set_option linter.unusedSectionVars false
set_option linter.unusedSimpArgs false
set_option linter.unusedVariables false

namespace Braft.Copier
open Braft.Store (Bytes)

variable {N K : Type} [DecidableEq N] [DecidableEq K]

theorem copies_eq {a b : Bytes} (h : Copies a b) : b = a := by
  obtain ⟨c, P, t, hr, rfl, hh, hf, h64, hp, ho, rfl⟩ := h
  obtain ⟨h1, h2, h3⟩ := (FileCopy.Run.inv h64 hf hr).done hp ho
  have hl := h3 hh
  have := h2.2
  rw [← hl, FileCopy.pad_self] at this
  rw [this, hl, List.take_length]

theorem upd_same {α : Type} (f : N → α) (n : N) (a : α) : upd f n a n = a := if_pos rfl
theorem upd_other {α : Type} (f : N → α) (n m : N) (a : α) (h : m ≠ n) : upd f n a m = f m := if_neg h

/-- Each checksum in the table is that of the file in `temp`. -/
def Sums (ck : Bytes → K) (s : State N K) (tab : Table N K) : Prop :=
  ∀ n k, tab n = some (some k) → ∃ i, s.temp n = some i ∧ ck (s.ino i) = k

/-- A file in `temp` that is not in the table is not one of the last snapshot. -/
def Apart (s : State N K) (tab : Table N K) : Prop := ∀ n i, tab n = none → s.temp n = some i → s.last n ≠ some i

structure Base (s : State N K) : Prop where
  tlt : ∀ n i, s.temp n = some i → i < s.next
  llt : ∀ n i, s.last n = some i → i < s.next
  tinj : ∀ n m i, s.temp n = some i → s.temp m = some i → n = m
  linj : ∀ n m i, s.last n = some i → s.last m = some i → n = m
  cross : ∀ n m i, s.temp n = some i → s.last m = some i → n = m

/-- What is in the table is what the remote snapshot has. -/
def Files (s : State N K) : Prop :=
  ∀ n, s.mem n ≠ none → s.mem n = s.src.tab n ∧ ∃ i, s.temp n = some i ∧ s.ino i = s.src.data n

structure Filt (ck : Bytes → K) (s : State N K) (rest rm : List N) : Prop where
  sums : Sums ck s s.mem
  src : ∀ n, s.mem n ≠ none → s.src.tab n ≠ none
  done : ∀ n, n ∉ rest → s.mem n ≠ none → ∃ k, s.src.tab n = some (some k) ∧ s.mem n = some (some k)
  inRm : ∀ m ∈ rm, m ∉ rest ∧ s.mem m = none
  nd : rm.Nodup
  ndr : rest.Nodup
  apart : ∀ n i, s.mem n = none → s.temp n = some i → s.last n = some i → n ∈ rm

/-- The invariant by where the copier is. `C`: no dangerous crash. -/
def Stage (ck : Bytes → K) (C : Prop) (s : State N K) : Prop :=
  match s.pc with
  | .idle => C → Sums ck s s.disk ∧ Apart s s.disk
  | .wiping go => go = true → s.src.Ok ck
  | .cleaning => s.src.Ok ck ∧ s.fil = true ∧ (C → Sums ck s s.disk ∧ Apart s s.disk ∧ s.mem = s.disk)
  | .filt rest rm => s.src.Ok ck ∧ s.fil = true ∧ (C → Filt ck s rest rm)
  | .link n rest rm => s.src.Ok ck ∧ s.fil = true ∧ (C → Filt ck s rest (if rm.head? = some n then rm.tail else rm) ∧
      Filt ck s rest rm ∧ n ∉ rest ∧ n ∉ (if rm.head? = some n then rm.tail else rm) ∧
      ∃ k, s.src.tab n = some (some k) ∧ s.lastTab n = some (some k))
  | .dels rm => s.src.Ok ck ∧ s.fil = true ∧ (C → Filt ck s [] rm) ∧ (C → s.disk = s.mem)
  | .prep => s.src.Ok ck ∧ (C ∨ s.fil = false → Files s) ∧ (C → Apart s s.mem ∧ Sums ck s s.disk ∧ Apart s s.disk)
  | .files rest => s.src.Ok ck ∧ (C ∨ s.fil = false → Files s ∧ ∀ n ∈ s.src.names, n ∉ rest → s.mem n ≠ none) ∧
      (C → s.disk = s.mem ∧ Apart s s.mem)
  | .copying n rest => s.src.Ok ck ∧ s.mem n = none ∧ s.temp n ≠ none ∧
      (C ∨ s.fil = false → Files s ∧ ∀ m ∈ s.src.names, m ∉ n :: rest → s.mem m ≠ none) ∧
      (C → s.disk = s.mem ∧ Apart s s.mem)
  | .sync rest => s.src.Ok ck ∧ (C ∨ s.fil = false → Files s ∧ ∀ n ∈ s.src.names, n ∉ rest → s.mem n ≠ none) ∧
      (C → Apart s s.mem ∧ Sums ck s s.disk ∧ Apart s s.disk)
  | .ready => s.src.Ok ck ∧ (C ∨ s.fil = false → Files s ∧ ∀ n ∈ s.src.names, s.mem n ≠ none) ∧
      (C → s.disk = s.mem ∧ Apart s s.mem)

structure Inv (ck : Bytes → K) (C : Prop) (s : State N K) : Prop where
  base : Base s
  lastSums : C → ∀ n k i, s.lastTab n = some (some k) → s.last n = some i → ck (s.ino i) = k
  stage : Stage ck C s

theorem Files.sums {ck : Bytes → K} {s : State N K} (h : Files s) (ho : s.src.Ok ck) : Sums ck s s.mem := by
  intro n k hk
  obtain ⟨h1, i, h2, h3⟩ := h n (by rw [hk]; simp)
  exact ⟨i, h2, by rw [h3]; exact ho.sums n k (by rw [← h1]; exact hk)⟩

theorem Inv.start (ck : Bytes → K) (C : Prop) : Inv ck C (State.empty : State N K) where
  base := ⟨fun n i h => (by cases h), fun n i h => (by cases h), fun n m i h => (by cases h), fun n m i h => (by cases h), fun n m i h => (by cases h)⟩
  lastSums := by intro _ n k i h; simp [State.empty] at h
  stage := by
    intro _
    exact ⟨fun n k h => by simp [State.empty] at h, fun n i _ h => by simp [State.empty] at h⟩

variable {ck : Bytes → K} {C : Prop} {s : State N K}

theorem Inv.begin (h : Inv ck C s) (src : Src N K) (filter : Bool) (hs : src.Ok ck) : Inv ck C (s.begin src filter) := by
  unfold State.begin
  by_cases hp : s.pc = .idle
  · rw [if_pos hp]
    have hst := h.stage
    unfold Stage at hst
    rw [hp] at hst
    cases filter
    · rw [if_neg (by simp)]
      exact ⟨⟨h.base.tlt, h.base.llt, h.base.tinj, h.base.linj, h.base.cross⟩, h.lastSums, fun _ => hs⟩
    · rw [if_pos rfl]
      exact ⟨⟨h.base.tlt, h.base.llt, h.base.tinj, h.base.linj, h.base.cross⟩, h.lastSums, hs, rfl,
        fun hc => ⟨(hst hc).1, (hst hc).2, rfl⟩⟩
  · rw [if_neg hp]; exact h

theorem base_del (h : Base s) (n : N) (t : State N K) (ht : t.temp = upd s.temp n none) (hl : t.last = s.last)
    (hn : t.next = s.next) : Base t := by
  have key : ∀ m i, t.temp m = some i → s.temp m = some i := by
    intro m i hm
    rw [ht] at hm
    by_cases e : m = n
    · subst e; rw [upd_same] at hm; cases hm
    · rwa [upd_other _ _ _ _ e] at hm
  refine ⟨fun m i hm => ?_, fun m i hm => ?_, fun m m' i h1 h2 => h.tinj m m' i (key _ _ h1) (key _ _ h2), ?_, ?_⟩
  · rw [hn]; exact h.tlt m i (key m i hm)
  · rw [hn]; rw [hl] at hm; exact h.llt m i hm
  · rw [hl]; exact h.linj
  · intro m m' i h1 h2
    rw [hl] at h2
    exact h.cross m m' i (key _ _ h1) h2

theorem base_clear (h : Base s) (t : State N K) (ht : ∀ n, t.temp n = none) (hl : t.last = s.last)
    (hn : t.next = s.next) : Base t := by
  refine ⟨fun m i hm => ?_, fun m i hm => ?_, fun m m' i h1 h2 => ?_, ?_, ?_⟩
  · rw [ht] at hm; cases hm
  · rw [hn]; rw [hl] at hm; exact h.llt m i hm
  · rw [ht] at h1; cases h1
  · rw [hl]; exact h.linj
  · intro m m' i h1 h2; rw [ht] at h1; cases h1

theorem base_same (h : Base s) (t : State N K) (ht : t.temp = s.temp) (hl : t.last = s.last) (hn : t.next = s.next) : Base t := by
  refine ⟨?_, ?_, ?_, ?_, ?_⟩
  · rw [ht, hn]; exact h.tlt
  · rw [hl, hn]; exact h.llt
  · rw [ht]; exact h.tinj
  · rw [hl]; exact h.linj
  · rw [ht, hl]; exact h.cross

theorem Inv.wipeFile (h : Inv ck C s) (n : N) : Inv ck C (s.wipeFile n) := by
  unfold State.wipeFile
  split
  · next go hp =>
    have hst := h.stage
    unfold Stage at hst
    rw [hp] at hst
    exact ⟨base_del h.base n _ rfl rfl rfl, h.lastSums, by unfold Stage; dsimp only; rw [hp]; exact hst⟩
  · exact h

theorem Inv.wipeMeta (h : Inv ck C s) : Inv ck C s.wipeMeta := by
  unfold State.wipeMeta
  split
  · next go hp =>
    have hst := h.stage
    unfold Stage at hst
    rw [hp] at hst
    exact ⟨base_same h.base _ rfl rfl rfl, h.lastSums, by unfold Stage; dsimp only; rw [hp]; exact hst⟩
  · exact h

theorem Inv.wiped (h : Inv ck C s) : Inv ck C s.wiped := by
  unfold State.wiped
  split
  · next go hp =>
    have hst := h.stage
    unfold Stage at hst
    rw [hp] at hst
    refine ⟨base_clear h.base _ (fun _ => rfl) rfl rfl, h.lastSums, ?_⟩
    cases go
    · intro _
      exact ⟨fun n k hk => (by cases hk), fun n i _ hi => (by cases hi)⟩
    · exact ⟨hst rfl, fun _ n hn => absurd rfl hn, fun _ => ⟨fun n i _ hi => (by cases hi), fun n k hk => (by cases hk),
        fun n i _ hi => (by cases hi)⟩⟩
  · exact h

theorem Inv.clean (h : Inv ck C s) (n : N) : Inv ck C (s.clean n) := by
  unfold State.clean
  split
  · next hp =>
    have hst := h.stage
    unfold Stage at hst
    rw [hp.1] at hst
    obtain ⟨h1, h2, h3⟩ := hst
    refine ⟨base_del h.base n _ rfl rfl rfl, h.lastSums, ?_⟩
    unfold Stage
    dsimp only
    rw [hp.1]
    refine ⟨h1, h2, fun hc => ?_⟩
    obtain ⟨a, b, c⟩ := h3 hc
    refine ⟨?_, ?_, c⟩
    · intro m k hk
      have hne : m ≠ n := by
        intro e
        subst e
        have := hp.2
        rw [c] at this
        rw [this] at hk
        cases hk
      obtain ⟨i, hi, hi2⟩ := a m k hk
      exact ⟨i, by dsimp only; rw [upd_other _ _ _ _ hne]; exact hi, hi2⟩
    · intro m i hm hi
      dsimp only at hi
      by_cases e : m = n
      · subst e; rw [upd_same] at hi; cases hi
      · rw [upd_other _ _ _ _ e] at hi; exact b m i hm hi
  · exact h

theorem Inv.cleaned (h : Inv ck C s) (rm : List N) (hr : ∀ n, n ∈ rm ↔ s.mem n ≠ none ∧ s.src.tab n = none) (hd : rm.Nodup) :
    Inv ck C (s.cleaned rm) := by
  unfold State.cleaned
  by_cases hp : s.pc = .cleaning
  · rw [if_pos hp]
    have hst := h.stage
    unfold Stage at hst
    rw [hp] at hst
    obtain ⟨h1, h2, h3⟩ := hst
    refine ⟨base_same h.base _ rfl rfl rfl, h.lastSums, h1, h2, fun hc => ?_⟩
    obtain ⟨a, b, c⟩ := h3 hc
    have hmem : ∀ n, (if s.src.tab n = none then none else s.mem n) ≠ none → s.src.tab n ≠ none ∧
        (if s.src.tab n = none then none else s.mem n) = s.mem n := by
      intro n hn
      by_cases e : s.src.tab n = none
      · rw [if_pos e] at hn; exact absurd rfl hn
      · exact ⟨e, if_neg e⟩
    refine ⟨?_, fun n hn => (hmem n hn).1, ?_, ?_, hd, h1.nodup, ?_⟩
    · intro n k hk
      dsimp only at hk
      rw [(hmem n (by rw [hk]; simp)).2, c] at hk
      exact a n k hk
    · intro n hn hm
      exact absurd ((h1.names n).mpr (hmem n hm).1) hn
    · intro m hm
      have := (hr m).mp hm
      refine ⟨fun hx => ((h1.names m).mp hx) this.2, ?_⟩
      dsimp only
      rw [if_pos this.2]
    · intro n i hn hi hl
      dsimp only at hn hi hl
      by_cases e : s.mem n = none
      · rw [c] at e
        exact absurd hl (b n i e hi)
      · by_cases e2 : s.src.tab n = none
        · exact (hr n).mpr ⟨e, e2⟩
        · rw [if_neg e2] at hn; exact absurd hn e
  · rw [if_neg hp]; exact h

/-- A file leaves the table in the loop. -/
theorem Filt.drop {rest rm : List N} {n : N} (h : Filt ck s (n :: rest) rm) (t : State N K) (rm' : List N)
    (hrm : rm' = rm ∨ rm' = n :: rm) (hin : s.mem n ≠ none → rm' = n :: rm)
    (hm : t.mem = upd s.mem n none) (hi : t.ino = s.ino) (hl : t.last = s.last) (hsrc : t.src = s.src)
    (ht : t.temp = s.temp ∨ t.temp = upd s.temp n none) : Filt ck t rest rm' ∧ n ∉ rest ∧ n ∉ rm := by
  have hnr : n ∉ rest := (List.nodup_cons.mp h.ndr).1
  have hnm : n ∉ rm := fun hx => (h.inRm n hx).1 (List.mem_cons_self ..)
  have hmm : ∀ m, t.mem m ≠ none → m ≠ n ∧ t.mem m = s.mem m := by
    intro m hx
    rw [hm] at hx ⊢
    by_cases e : m = n
    · subst e; rw [upd_same] at hx; exact absurd rfl hx
    · exact ⟨e, upd_other _ _ _ _ e⟩
  have htt : ∀ m, m ≠ n → t.temp m = s.temp m := by
    intro m e
    rcases ht with ht | ht
    · rw [ht]
    · rw [ht, upd_other _ _ _ _ e]
  have htn : ∀ i, t.temp n = some i → s.temp n = some i := by
    intro i hx
    rcases ht with ht | ht
    · rwa [ht] at hx
    · rw [ht, upd_same] at hx; cases hx
  have hsub : ∀ m, m ∈ rm → m ∈ rm' := by
    intro m hx
    rcases hrm with rfl | rfl
    · exact hx
    · exact List.mem_cons_of_mem _ hx
  refine ⟨⟨?_, ?_, ?_, ?_, ?_, (List.nodup_cons.mp h.ndr).2, ?_⟩, hnr, hnm⟩
  · intro m k hk
    obtain ⟨e, e2⟩ := hmm m (by rw [hk]; simp)
    obtain ⟨i, h1, h2⟩ := h.sums m k (by rw [← e2]; exact hk)
    exact ⟨i, by rw [htt m e]; exact h1, by rw [hi]; exact h2⟩
  · intro m hx
    obtain ⟨e, e2⟩ := hmm m hx
    rw [hsrc]; exact h.src m (by rw [← e2]; exact hx)
  · intro m hmr hx
    obtain ⟨e, e2⟩ := hmm m hx
    rw [hsrc, e2]
    exact h.done m (by
      intro hc
      rcases List.mem_cons.mp hc with hc | hc
      · exact e hc
      · exact hmr hc) (by rw [← e2]; exact hx)
  · intro m hx
    rcases Classical.em (m = n) with e | e
    · subst e
      exact ⟨hnr, by rw [hm, upd_same]⟩
    · have hx' : m ∈ rm := by
        rcases hrm with rfl | rfl
        · exact hx
        · rcases List.mem_cons.mp hx with hx | hx
          · exact absurd hx e
          · exact hx
      refine ⟨fun hc => (h.inRm m hx').1 (List.mem_cons_of_mem _ hc), ?_⟩
      rw [hm, upd_other _ _ _ _ e]; exact (h.inRm m hx').2
  · rcases hrm with rfl | rfl
    · exact h.nd
    · exact List.nodup_cons.mpr ⟨hnm, h.nd⟩
  · intro m i h1 h2 h3
    rw [hl] at h3
    rcases Classical.em (m = n) with e | e
    · subst e
      have h2' := htn i h2
      by_cases e2 : s.mem m = none
      · exact hsub m (h.apart m i e2 h2' h3)
      · rw [hin e2]; exact List.mem_cons_self ..
    · rw [hm, upd_other _ _ _ _ e] at h1
      rw [htt m e] at h2
      exact hsub m (h.apart m i h1 h2 h3)

theorem Inv.filter (h : Inv ck C s) : Inv ck C s.filter := by
  unfold State.filter
  split
  · next n rest rm hp =>
    have hst := h.stage
    unfold Stage at hst
    rw [hp] at hst
    obtain ⟨h1, h2, h3⟩ := hst
    split
    · next k hk =>
      split
      · next hm =>
        refine ⟨base_same h.base _ rfl rfl rfl, h.lastSums, h1, h2, fun hc => ?_⟩
        have hf := h3 hc
        refine ⟨hf.sums, hf.src, ?_, ?_, hf.nd, (List.nodup_cons.mp hf.ndr).2, hf.apart⟩
        · intro m hmr hx
          rcases Classical.em (m = n) with e | e
          · subst e; exact ⟨k, hk, hm⟩
          · exact hf.done m (by
              intro hx'
              rcases List.mem_cons.mp hx' with hx' | hx'
              · exact e hx'
              · exact hmr hx') hx
        · intro m hx
          exact ⟨fun hx' => (hf.inRm m hx).1 (List.mem_cons_of_mem _ hx'), (hf.inRm m hx).2⟩
      · next hm =>
        dsimp only
        split
        · next hl =>
          refine ⟨base_del h.base n _ rfl rfl rfl, h.lastSums, h1, h2, fun hc => ?_⟩
          have hf := h3 hc
          have hnm : n ∉ rm := fun hx => (hf.inRm n hx).1 (List.mem_cons_self ..)
          have d1 := hf.drop (s := s) (State.mk s.ino s.next (upd s.temp n none) s.disk s.last s.lastTab (upd s.mem n none)
            s.src s.fil (Pc.link n rest (if s.mem n = none then rm else n :: rm))) (if s.mem n = none then rm else n :: rm)
            (by split; exact Or.inl rfl; exact Or.inr rfl) (fun hx => if_neg hx) rfl rfl rfl rfl (Or.inr rfl)
          have e : (if (if s.mem n = none then rm else n :: rm).head? = some n then
              (if s.mem n = none then rm else n :: rm).tail else (if s.mem n = none then rm else n :: rm)) = rm := by
            by_cases e : s.mem n = none
            · rw [if_pos e, if_neg]
              intro hx
              exact hnm (List.mem_of_head? hx)
            · rw [if_neg e]; simp
          rw [e]
          refine ⟨?_, d1.1, d1.2.1, hnm, k, hk, hl⟩
          -- the same without the name on the list: it is not in `temp` now
          have f := d1.1
          refine ⟨f.sums, f.src, f.done, ?_, hf.nd, f.ndr, ?_⟩
          · intro m hx
            refine f.inRm m ?_
            split
            · exact hx
            · exact List.mem_cons_of_mem _ hx
          · intro m i a b c
            have := f.apart m i a b c
            by_cases e2 : s.mem n = none
            · rwa [if_pos e2] at this
            · rw [if_neg e2] at this
              rcases List.mem_cons.mp this with e3 | e3
              · subst e3
                dsimp only at b
                rw [upd_same] at b; cases b
              · exact e3
        · next hl =>
          refine ⟨base_same h.base _ rfl rfl rfl, h.lastSums, h1, h2, fun hc => ?_⟩
          exact ((h3 hc).drop (s := s) (State.mk s.ino s.next s.temp s.disk s.last s.lastTab (upd s.mem n none) s.src s.fil
            (Pc.filt rest (if s.mem n = none then rm else n :: rm))) _
            (by split; exact Or.inl rfl; exact Or.inr rfl) (fun hx => if_neg hx) rfl rfl rfl rfl (Or.inl rfl)).1
    · refine ⟨base_same h.base _ rfl rfl rfl, h.lastSums, h1, h2, fun hc => ?_⟩
      exact ((h3 hc).drop (s := s) (State.mk s.ino s.next s.temp s.disk s.last s.lastTab (upd s.mem n none) s.src s.fil
        (Pc.filt rest (n :: rm))) _ (Or.inr rfl) (fun _ => rfl) rfl rfl rfl rfl (Or.inl rfl)).1
  · exact h

theorem Inv.link (h : Inv ck C s) (ok : Bool) : Inv ck C (s.link ok) := by
  unfold State.link
  split
  · next n rest rm hp =>
    have hst := h.stage
    unfold Stage at hst
    rw [hp] at hst
    obtain ⟨h1, h2, h3⟩ := hst
    generalize (if rm.head? = some n then rm.tail else rm) = rm1 at h3 ⊢
    split
    · next hl =>
      refine ⟨?_, h.lastSums, h1, h2, fun hc => ?_⟩
      · -- base
        have b := h.base
        have key : ∀ m i, upd s.temp n (s.last n) m = some i → s.temp m = some i ∨ (m = n ∧ s.last n = some i) := by
          intro m i hm
          by_cases e : m = n
          · subst e; rw [upd_same] at hm; exact Or.inr ⟨rfl, hm⟩
          · rw [upd_other _ _ _ _ e] at hm; exact Or.inl hm
        refine ⟨?_, b.llt, ?_, b.linj, ?_⟩
        · intro m i hm
          rcases key m i hm with hm | ⟨_, hm⟩
          · exact b.tlt m i hm
          · exact b.llt n i hm
        · intro m m' i a c
          rcases key m i a with a | ⟨e, a⟩ <;> rcases key m' i c with c | ⟨e', c⟩
          · exact b.tinj m m' i a c
          · rw [e']; exact b.cross m n i a c
          · rw [e]; exact (b.cross m' n i c a).symm
          · rw [e, e']
        · intro m m' i a c
          rcases key m i a with a | ⟨e, a⟩
          · exact b.cross m m' i a c
          · rw [e]; exact b.linj n m' i a c
      · obtain ⟨f, f', hnr, hnm, k, hk, hlk⟩ := h3 hc
        obtain ⟨i, hi⟩ : ∃ i, s.last n = some i := by
          cases hx : s.last n with
          | none => exact absurd hx hl.2
          | some i => exact ⟨i, rfl⟩
        have hck := h.lastSums hc n k i hlk hi
        have hmo : ∀ m, m ≠ n → upd s.mem n (s.lastTab n) m = s.mem m := fun m e => upd_other _ _ _ _ e
        refine ⟨?_, ?_, ?_, ?_, f.nd, f.ndr, ?_⟩
        · intro m k' hk'
          dsimp only at hk' ⊢
          by_cases e : m = n
          · subst e
            rw [upd_same, hlk] at hk'
            cases hk'
            exact ⟨i, by rw [upd_same]; exact hi, hck⟩
          · rw [hmo m e] at hk'
            rw [upd_other _ _ _ _ e]
            exact f.sums m k' hk'
        · intro m hm
          dsimp only at hm ⊢
          by_cases e : m = n
          · subst e; rw [hk]; simp
          · rw [hmo m e] at hm; exact f.src m hm
        · intro m hmr hm
          dsimp only at hm ⊢
          by_cases e : m = n
          · subst e; rw [upd_same]; exact ⟨k, hk, hlk⟩
          · rw [hmo m e] at hm ⊢; exact f.done m hmr hm
        · intro m hm
          dsimp only
          have e : m ≠ n := fun e => hnm (e ▸ hm)
          rw [hmo m e]; exact f.inRm m hm
        · intro m j a b c
          dsimp only at a b c
          by_cases e : m = n
          · subst e; rw [upd_same, hlk] at a; cases a
          · rw [hmo m e] at a
            rw [upd_other _ _ _ _ e] at b
            exact f.apart m j a b c
    · refine ⟨base_same h.base _ rfl rfl rfl, h.lastSums, h1, h2, fun hc => ?_⟩
      have f := (h3 hc).2.1
      exact ⟨f.sums, f.src, f.done, f.inRm, f.nd, f.ndr, f.apart⟩
  · exact h

theorem Inv.filtered (h : Inv ck C s) (ok : Bool) : Inv ck C (s.filtered ok) := by
  unfold State.filtered
  split
  · next rm hp =>
    have hst := h.stage
    unfold Stage at hst
    rw [hp] at hst
    obtain ⟨h1, h2, h3⟩ := hst
    cases ok
    · rw [if_neg (by simp)]
      exact ⟨base_same h.base _ rfl rfl rfl, h.lastSums, fun _ => h1⟩
    · rw [if_pos rfl]
      refine ⟨base_same h.base _ rfl rfl rfl, h.lastSums, h1, h2, fun hc => ?_, fun _ => rfl⟩
      have f := h3 hc
      exact ⟨f.sums, f.src, f.done, f.inRm, f.nd, f.ndr, f.apart⟩
  · exact h

theorem Inv.crash (h : Inv ck C s) (hc : C → match s.pc with
    | .filt _ _ | .link _ _ _ | .dels _ | .wiping _ => False
    | _ => True) : Inv ck C s.crash := by
  refine ⟨base_same h.base _ rfl rfl rfl, h.lastSums, ?_⟩
  have hst := h.stage
  unfold Stage at hst
  intro hC
  have hx := hc hC
  show Sums ck s s.disk ∧ Apart s s.disk
  generalize hp : s.pc = pc at hst hx
  cases pc with
  | idle => exact hst hC
  | wiping go => exact hx.elim
  | cleaning => exact ⟨(hst.2.2 hC).1, (hst.2.2 hC).2.1⟩
  | filt rest rm => exact hx.elim
  | link n rest rm => exact hx.elim
  | dels rm => exact hx.elim
  | prep => exact (hst.2.2 hC).2
  | files rest =>
    obtain ⟨e, a⟩ := hst.2.2 hC
    rw [e]
    exact ⟨(hst.2.1 (Or.inl hC)).1.sums hst.1, a⟩
  | copying n rest =>
    obtain ⟨h1, _, _, h5, h6⟩ := hst
    obtain ⟨e, a⟩ := h6 hC
    rw [e]
    exact ⟨(h5 (Or.inl hC)).1.sums h1, a⟩
  | sync rest => exact (hst.2.2 hC).2
  | ready =>
    obtain ⟨e, a⟩ := hst.2.2 hC
    rw [e]
    exact ⟨(hst.2.1 (Or.inl hC)).1.sums hst.1, a⟩

/-- To stop is like a crash for what is on disk. -/
theorem Inv.stop (h : Inv ck C s) (hc : C → match s.pc with
    | .filt _ _ | .link _ _ _ | .dels _ | .wiping _ => False
    | _ => True) : Inv ck C { s with pc := .idle } := by
  have := h.crash hc
  exact ⟨base_same h.base _ rfl rfl rfl, h.lastSums, this.stage⟩

/-- The invariant by the fields it depends on, for a change of `pc` alone. -/
theorem Inv.setPc (h : Inv ck C s) (pc : Pc N) (hst : Stage ck C { s with pc := pc }) : Inv ck C { s with pc := pc } :=
  ⟨base_same h.base _ rfl rfl rfl, h.lastSums, hst⟩

theorem Filt.files {rm : List N} (hck : ∀ a b, ck a = ck b → a = b) (f : Filt ck s [] rm) (ho : s.src.Ok ck) : Files s := by
  intro n hn
  obtain ⟨k, h1, h2⟩ := f.done n (by simp) hn
  obtain ⟨i, h3, h4⟩ := f.sums n k h2
  refine ⟨by rw [h1, h2], i, h3, hck _ _ ?_⟩
  rw [h4, ho.sums n k h1]

theorem Inv.delete (hck : ∀ a b, ck a = ck b → a = b) (h : Inv ck C s) : Inv ck C s.delete := by
  unfold State.delete
  split
  · next n rm hp =>
    have hst := h.stage
    unfold Stage at hst
    rw [hp] at hst
    obtain ⟨h1, h2, h3⟩ := hst
    refine ⟨base_del h.base n _ rfl rfl rfl, h.lastSums, h1, h2, fun hc => ?_, h3.2⟩
    have f := h3.1 hc
    have hnm := List.nodup_cons.mp f.nd
    refine ⟨?_, f.src, f.done, fun m hm => f.inRm m (List.mem_cons_of_mem _ hm), hnm.2, f.ndr, ?_⟩
    · intro m k hk
      obtain ⟨i, a, b⟩ := f.sums m k hk
      have e : m ≠ n := by
        intro e
        subst e
        have := (f.inRm m (List.mem_cons_self ..)).2
        dsimp only at hk
        rw [this] at hk; cases hk
      exact ⟨i, by dsimp only; rw [upd_other _ _ _ _ e]; exact a, b⟩
    · intro m i a b c
      dsimp only at a b c
      by_cases e : m = n
      · subst e; rw [upd_same] at b; cases b
      · rw [upd_other _ _ _ _ e] at b
        rcases List.mem_cons.mp (f.apart m i a b c) with e2 | e2
        · exact absurd e2 e
        · exact e2
  · next hp =>
    have hst := h.stage
    unfold Stage at hst
    rw [hp] at hst
    obtain ⟨h1, h2, h3⟩ := hst
    refine h.setPc _ ⟨h1, fun hc => ?_, fun hc => ?_⟩
    · rcases hc with hc | hc
      · exact Filt.files (s := s) hck (h3.1 hc) h1
      · dsimp only at hc; rw [h2] at hc; cases hc
    · have f := h3.1 hc
      have e := h3.2 hc
      have ap : Apart s s.mem := fun n i a b c => by cases f.apart n i a b c
      refine ⟨ap, ?_, ?_⟩
      · show Sums ck s s.disk
        rw [e]; exact f.sums
      · show Apart s s.disk
        rw [e]; exact ap
  · exact h

theorem Inv.prepared (h : Inv ck C s) (ok : Bool) : Inv ck C (s.prepared ok) := by
  unfold State.prepared
  split
  · next hp =>
    have hst := h.stage
    unfold Stage at hst
    rw [hp] at hst
    obtain ⟨h1, h2, h3⟩ := hst
    cases ok
    · rw [if_neg (by simp)]
      exact h.stop (fun _ => by rw [hp]; trivial)
    · rw [if_pos rfl]
      exact ⟨base_same h.base _ rfl rfl rfl, h.lastSums, h1, fun hc => ⟨h2 hc, fun n hn hx => absurd hn hx⟩,
        fun hc => ⟨rfl, (h3 hc).1⟩⟩
  · exact h

/-- The file of a name that is not in the table is written. -/
theorem Files.write (h : Files s) (hb : Base s) {n : N} {i : Nat} (hi : s.temp n = some i) (hm : s.mem n = none) (b : Bytes)
    (t : State N K) (h1 : t.mem = s.mem) (h2 : t.src = s.src) (h3 : t.temp = s.temp) (h4 : t.ino = upd s.ino i b) : Files t := by
  intro m hx
  rw [h1] at hx
  obtain ⟨a, j, c, d⟩ := h m hx
  refine ⟨by rw [h1, h2]; exact a, j, by rw [h3]; exact c, ?_⟩
  rw [h4, h2, upd_other _ _ _ _ (?_ : j ≠ i)]
  · exact d
  · intro e
    subst e
    have := hb.tinj m n j c hi
    subst this
    exact hx hm

theorem lastSums_write (hb : Base s) (h : ∀ n k i, s.lastTab n = some (some k) → s.last n = some i → ck (s.ino i) = k)
    {n : N} {i : Nat} (hi : s.temp n = some i) (hm : s.mem n = none) (ha : Apart s s.mem) (b : Bytes) :
    ∀ m k j, s.lastTab m = some (some k) → s.last m = some j → ck (upd s.ino i b j) = k := by
  intro m k j hk hj
  have e : j ≠ i := by
    intro e
    subst e
    have := hb.cross n m j hi hj
    subst this
    exact ha n j hm hi hj
  rw [upd_other _ _ _ _ e]
  exact h m k j hk hj

theorem Inv.next_file (h : Inv ck C s) : Inv ck C s.next_file := by
  unfold State.next_file
  split
  · next n rest hp =>
    have hst := h.stage
    unfold Stage at hst
    rw [hp] at hst
    obtain ⟨h1, h2, h3⟩ := hst
    split
    · next hm =>
      refine h.setPc _ ⟨h1, fun hc => ⟨(h2 hc).1, fun m hmn hmr => ?_⟩, h3⟩
      by_cases e : m = n
      · subst e; exact hm
      · exact (h2 hc).2 m hmn (by simp [e, hmr])
    · next hm =>
      have hm : s.mem n = none := by simpa using hm
      split
      · next i hi =>
        refine ⟨base_same h.base _ rfl rfl rfl, fun hc => lastSums_write h.base (h.lastSums hc) hi hm (h3 hc).2 _, ?_⟩
        refine ⟨h1, hm, ?_, fun hc => ⟨Files.write (h2 hc).1 h.base hi hm [] _ rfl rfl rfl rfl, (h2 hc).2⟩, h3⟩
        dsimp only; rw [hi]; simp
      · next hi =>
        have b := h.base
        have key : ∀ m i, upd s.temp n (some s.next) m = some i → (m ≠ n ∧ s.temp m = some i) ∨ (m = n ∧ i = s.next) := by
          intro m i hx
          by_cases e : m = n
          · subst e; rw [upd_same] at hx; exact Or.inr ⟨rfl, by injection hx with hx; exact hx.symm⟩
          · rw [upd_other _ _ _ _ e] at hx; exact Or.inl ⟨e, hx⟩
        refine ⟨⟨?_, ?_, ?_, b.linj, ?_⟩, ?_, h1, hm, ?_, ?_, ?_⟩
        · intro m i hx
          dsimp only at hx ⊢
          rcases key m i hx with ⟨_, hx⟩ | ⟨_, hx⟩
          · have := b.tlt m i hx; omega
          · omega
        · intro m i hx
          have := b.llt m i hx
          dsimp only; omega
        · intro m m' i hx hy
          rcases key m i hx with ⟨e, hx⟩ | ⟨e, hx⟩ <;> rcases key m' i hy with ⟨e', hy⟩ | ⟨e', hy⟩
          · exact b.tinj m m' i hx hy
          · have := b.tlt m i hx; omega
          · have := b.tlt m' i hy; omega
          · rw [e, e']
        · intro m m' i hx hy
          have hlt := b.llt m' i hy
          rcases key m i hx with ⟨e, hx⟩ | ⟨e, hx⟩
          · exact b.cross m m' i hx hy
          · omega
        · intro hc m k j hk hj
          have := b.llt m j hj
          dsimp only
          rw [upd_other _ _ _ _ (by omega)]
          exact h.lastSums hc m k j hk hj
        · dsimp only; rw [upd_same]; simp
        · intro hc
          refine ⟨?_, (h2 hc).2⟩
          intro m hx
          obtain ⟨e, j, c, d⟩ := (h2 hc).1 m hx
          have hj := b.tlt m j c
          refine ⟨e, j, ?_, ?_⟩
          · dsimp only
            rw [upd_other _ _ _ _ (by intro e2; subst e2; exact hx hm)]
            exact c
          · dsimp only
            rw [upd_other _ _ _ _ (by omega)]
            exact d
        · intro hc
          refine ⟨(h3 hc).1, ?_⟩
          intro m i hmn hx
          rcases key m i hx with ⟨e, hx⟩ | ⟨e, hx⟩
          · exact (h3 hc).2 m i hmn hx
          · intro hl
            have := b.llt m i hl
            omega
  · next hp =>
    have hst := h.stage
    unfold Stage at hst
    rw [hp] at hst
    obtain ⟨h1, h2, h3⟩ := hst
    exact h.setPc _ ⟨h1, fun hc => ⟨(h2 hc).1, fun m hmn => (h2 hc).2 m hmn (by simp)⟩, h3⟩
  · exact h

theorem Inv.write (h : Inv ck C s) (b : Bytes) : Inv ck C (s.write b) := by
  unfold State.write
  split
  · next n rest hp =>
    have hst := h.stage
    unfold Stage at hst
    rw [hp] at hst
    obtain ⟨h1, hm, ht, h2, h3⟩ := hst
    split
    · next i hi =>
      refine ⟨base_same h.base _ rfl rfl rfl, fun hc => lastSums_write h.base (h.lastSums hc) hi hm (h3 hc).2 _, ?_⟩
      unfold Stage
      dsimp only
      rw [hp]
      exact ⟨h1, hm, ht, fun hc => ⟨Files.write (h2 hc).1 h.base hi hm b _ rfl rfl rfl rfl, (h2 hc).2⟩, h3⟩
    · exact h
  · exact h

theorem Inv.copied (h : Inv ck C s)
    (hcp : ∀ n rest i, s.pc = .copying n rest → s.temp n = some i → Copies (s.src.data n) (s.ino i)) : Inv ck C s.copied := by
  unfold State.copied
  split
  · next n rest hp =>
    have hst := h.stage
    unfold Stage at hst
    rw [hp] at hst
    obtain ⟨h1, hm, ht, h2, h3⟩ := hst
    obtain ⟨i, hi⟩ : ∃ i, s.temp n = some i := by
      cases hx : s.temp n with
      | none => exact absurd hx ht
      | some i => exact ⟨i, rfl⟩
    have he := copies_eq (hcp n rest i hp hi)
    refine ⟨base_same h.base _ rfl rfl rfl, h.lastSums, h1, fun hc => ⟨?_, ?_⟩, fun hc => ⟨?_, ?_⟩⟩
    · intro m hx
      dsimp only at hx ⊢
      by_cases e : m = n
      · subst e; rw [upd_same]; exact ⟨rfl, i, hi, he⟩
      · rw [upd_other _ _ _ _ e] at hx ⊢; exact (h2 hc).1 m hx
    · intro m hmn hmr
      dsimp only at hmn ⊢
      by_cases e : m = n
      · subst e; rw [upd_same]; exact (h1.names m).mp hmn
      · rw [upd_other _ _ _ _ e]; exact (h2 hc).2 m hmn (by simp [e, hmr])
    · intro m j hx hj
      dsimp only at hx hj ⊢
      by_cases e : m = n
      · subst e; exact (h3 hc).2 m j hm hj
      · rw [upd_other _ _ _ _ e] at hx; exact (h3 hc).2 m j hx hj
    · show Sums ck s s.disk ∧ Apart s s.disk
      rw [(h3 hc).1]
      exact ⟨(h2 (Or.inl hc)).1.sums h1, (h3 hc).2⟩
  · exact h

theorem Inv.synced (h : Inv ck C s) (ok : Bool) : Inv ck C (s.synced ok) := by
  unfold State.synced
  split
  · next rest hp =>
    have hst := h.stage
    unfold Stage at hst
    rw [hp] at hst
    obtain ⟨h1, h2, h3⟩ := hst
    cases ok
    · rw [if_neg (by simp)]
      exact h.stop (fun _ => by rw [hp]; trivial)
    · rw [if_pos rfl]
      exact ⟨base_same h.base _ rfl rfl rfl, h.lastSums, h1, h2, fun hc => ⟨rfl, (h3 hc).1⟩⟩
  · exact h

theorem Inv.fail (h : Inv ck C s) : Inv ck C s.fail := by
  unfold State.fail
  split
  · next hp => exact h.stop (fun _ => by rw [hp]; trivial)
  · next hp => exact h.stop (fun _ => by rw [hp]; trivial)
  · next hp => exact h.stop (fun _ => by rw [hp]; trivial)
  · exact h

theorem Inv.publish (h : Inv ck C s) : Inv ck C s.publish := by
  unfold State.publish
  split
  · next hp =>
    have hst := h.stage
    unfold Stage at hst
    rw [hp] at hst
    obtain ⟨h1, h2, h3⟩ := hst
    refine ⟨⟨fun n i hx => (by cases hx), h.base.tlt, fun n m i hx => (by cases hx), h.base.tinj, fun n m i hx => (by cases hx)⟩, ?_, ?_⟩
    · intro hc n k i hk hi
      obtain ⟨j, a, b⟩ := (h2 (Or.inl hc)).1.sums h1 n k hk
      dsimp only at hi
      rw [a] at hi
      injection hi with hi
      subst hi
      exact b
    · intro _
      exact ⟨fun n k hk => (by cases hk), fun n i _ hi => (by cases hi)⟩
  · exact h

theorem Inv.destroy (h : Inv ck C s) : Inv ck C s.destroy := by
  unfold State.destroy
  split
  · exact h.setPc _ (fun hx => by cases hx)
  · exact h

theorem Inv.saved (h : Inv ck C s) {ino : Nat → Bytes} {next : Nat} {dir : N → Option Nat} {tab : Table N K}
    (h0 : s.pc = .idle) (hs : Saved ck s ino next dir tab) :
    Inv ck C { s with ino := ino, next := next, last := dir, lastTab := tab, temp := fun _ => none, disk := fun _ => none } := by
  refine ⟨⟨fun n i hx => (by cases hx), fun n i hx => (hs.fresh n i hx).2, fun n m i hx => (by cases hx), hs.inj,
    fun n m i hx => (by cases hx)⟩, ?_, ?_⟩
  · intro hc n k i hk hi
    obtain ⟨j, a, b⟩ := hs.sums n k hk
    dsimp only at hi
    rw [a] at hi
    injection hi with hi
    subst hi
    exact b
  · unfold Stage
    dsimp only
    rw [h0]
    exact fun _ => ⟨fun n k hk => (by cases hk), fun n i _ hi => (by cases hi)⟩

theorem Inv.left (h : Inv ck C s) {ino : Nat → Bytes} {next : Nat} {dir : N → Option Nat} {tab : Table N K}
    (h0 : s.pc = .idle) (hs : Saved ck s ino next dir tab) :
    Inv ck C { s with ino := ino, next := next, temp := dir, disk := tab } := by
  have apart : ∀ n m i, dir n = some i → s.last m = some i → False := by
    intro n m i a b
    have := (hs.fresh n i a).1
    have := h.base.llt m i b
    omega
  refine ⟨⟨fun n i hx => (hs.fresh n i hx).2, fun n i hx => ?_, hs.inj, h.base.linj, fun n m i a b => (apart n m i a b).elim⟩, ?_, ?_⟩
  · have := h.base.llt n i hx
    have := hs.le
    dsimp only; omega
  · intro hc n k i hk hi
    have := h.base.llt n i hi
    dsimp only
    rw [hs.old i this]
    exact h.lastSums hc n k i hk hi
  · unfold Stage
    dsimp only
    rw [h0]
    exact fun _ => ⟨hs.sums, fun n i _ hi hl => apart n n i hi hl⟩

theorem Inv.step {sub : N → Bool} {A : Allow} {t : State N K} (hck : ∀ a b, ck a = ck b → a = b)
    (hC : C → A.crashFilter = false ∧ A.crashWipe = false) (h : Inv ck C s) (hs : Step ck sub A s t) : Inv ck C t := by
  cases hs with
  | begin src filter ho => exact h.begin src filter ho
  | wipeFile n => exact h.wipeFile n
  | wipeMeta => exact h.wipeMeta
  | wiped => exact h.wiped
  | clean n _ => exact h.clean n
  | cleaned rm _ hr hd => exact h.cleaned rm hr hd
  | filter => exact h.filter
  | link ok => exact h.link ok
  | filtered ok => exact h.filtered ok
  | delete => exact h.delete hck
  | prepared ok => exact h.prepared ok
  | next_file => exact h.next_file
  | write b => exact h.write b
  | copied hcp => exact h.copied hcp
  | synced ok => exact h.synced ok
  | fail => exact h.fail
  | publish => exact h.publish
  | destroy => exact h.destroy
  | saved ino next dir tab h0 hsv => exact h.saved h0 hsv
  | left ino next dir tab h0 hsv => exact h.left h0 hsv
  | crash hcr =>
    refine h.crash (fun hc => ?_)
    obtain ⟨h1, h2⟩ := hC hc
    generalize s.pc = pc at hcr
    cases pc <;> simp_all [Allow.crash]

theorem Run.inv {sub : N → Bool} {A : Allow} (hck : ∀ a b, ck a = ck b → a = b)
    (hC : C → A.crashFilter = false ∧ A.crashWipe = false) (h : Run ck sub A s) : Inv ck C s := by
  induction h with
  | start => exact Inv.start ck C
  | step _ hs ih => exact ih.step hck hC hs

/-- No step changes a file of the last snapshot. -/
theorem Inv.last_kept {sub : N → Bool} {A : Allow} {t : State N K} (h : Inv ck C s) (hc : C) (hs : Step ck sub A s t)
    {n : N} {i : Nat} (hl : s.last n = some i) : t.ino i = s.ino i := by
  have hlt := h.base.llt n i hl
  have hst := h.stage
  unfold Stage at hst
  have key : ∀ m j (b : Bytes), s.temp m = some j → s.mem m = none → Apart s s.mem → upd s.ino j b i = s.ino i := by
    intro m j b hj hm ha
    refine upd_other _ _ _ _ (fun e => ?_)
    subst e
    have := h.base.cross m n i hj hl
    subst this
    exact ha m i hm hj hl
  cases hs with
  | begin src filter ho => unfold State.begin; split <;> (try split) <;> rfl
  | wipeFile n => unfold State.wipeFile; split <;> rfl
  | wipeMeta => unfold State.wipeMeta; split <;> rfl
  | wiped => unfold State.wiped; split <;> rfl
  | clean n _ => unfold State.clean; split <;> rfl
  | cleaned rm _ hr hd => unfold State.cleaned; split <;> rfl
  | filter => unfold State.filter; split <;> (try split) <;> (try split) <;> (try dsimp only) <;> (try split) <;> rfl
  | link ok => unfold State.link; split <;> (try split) <;> rfl
  | filtered ok => unfold State.filtered; split <;> (try split) <;> rfl
  | delete => unfold State.delete; split <;> rfl
  | prepared ok => unfold State.prepared; split <;> (try split) <;> rfl
  | next_file =>
    unfold State.next_file
    split
    · next m rest hp =>
      rw [hp] at hst
      split
      · rfl
      · next hm =>
        have hm : s.mem m = none := by simpa using hm
        split
        · next j hj => exact key m j _ hj hm (hst.2.2 hc).2
        · exact upd_other _ _ _ _ (by omega)
    · rfl
    · rfl
  | write b =>
    unfold State.write
    split
    · next m rest hp =>
      rw [hp] at hst
      split
      · next j hj => exact key m j b hj hst.2.1 (hst.2.2.2.2 hc).2
      · rfl
    · rfl
  | copied hcp => unfold State.copied; split <;> rfl
  | synced ok => unfold State.synced; split <;> (try split) <;> rfl
  | fail => unfold State.fail; split <;> rfl
  | publish => unfold State.publish; split <;> rfl
  | destroy => unfold State.destroy; split <;> rfl
  | saved ino next dir tab h0 hsv => exact hsv.old i hlt
  | left ino next dir tab h0 hsv => exact hsv.old i hlt
  | crash hcr => rfl

end Braft.Copier
