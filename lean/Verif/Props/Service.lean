import Verif.Snap.Service
/-
C59: the file service serves a registered snapshot, under its own id, and only its listed files.

`Run pid us s`: any calls of add_reader and remove_reader in one process. Readers are handed out fewer than 2^64 times.
-/
set_option linter.unusedVariables false
set_option linter.unusedSectionVars false

namespace Braft.Service
variable {D N : Type}

/-- The ids handed out so far are the ones from the start of the counter on. -/
structure Inv (pid us : BitVec 64) (s : State D N) : Prop where
  next : s.next = firstId pid us + BitVec.ofNat 64 s.given.length
  ids : ∀ k (h : k < s.given.length), (s.given[k]).1 = firstId pid us + BitVec.ofNat 64 k
  known : ∀ i r, s.map i = some r → (i, r) ∈ s.given

theorem Run.inv {pid us : BitVec 64} {s : State D N} (h : Run pid us s) : Inv pid us s := by
  induction h with
  | init =>
    refine ⟨?_, ?_, ?_⟩
    · simp [State.init]
    · intro k hk; simp [State.init] at hk
    · intro i r hi; simp [State.init] at hi
  | @add s h r ih =>
    refine ⟨?_, ?_, ?_⟩
    · show s.next + 1 = _
      rw [ih.next]
      simp only [State.add, List.length_append, List.length_cons, List.length_nil, Nat.zero_add]
      rw [BitVec.add_assoc]
      congr 1
      exact (BitVec.ofNat_add _ 1).symm
    · intro k hk
      simp only [State.add] at hk ⊢
      rw [List.length_append, List.length_cons, List.length_nil] at hk
      by_cases hk' : k < s.given.length
      · rw [List.getElem_append_left hk']; exact ih.ids k hk'
      · rw [List.getElem_append_right (by omega)]
        have : k = s.given.length := by omega
        subst this
        simp [ih.next]
    · intro i r' hi
      simp only [State.add] at hi ⊢
      rw [List.mem_append]
      by_cases e : i = s.next
      · rw [if_pos e] at hi
        right; simp [e, Option.some.inj hi]
      · rw [if_neg e] at hi
        exact Or.inl (ih.known i r' hi)
  | @remove s h id ih =>
    refine ⟨ih.next, ih.ids, ?_⟩
    intro i r' hi
    simp only [State.remove] at hi ⊢
    by_cases e : i = id
    · rw [if_pos e] at hi; simp at hi
    · rw [if_neg e] at hi; exact ih.known i r' hi

theorem ofNat_inj {a b : Nat} (ha : a < 2 ^ 64) (hb : b < 2 ^ 64) (h : BitVec.ofNat 64 a = BitVec.ofNat 64 b) : a = b := by
  have := congrArg BitVec.toNat h
  simpa [BitVec.toNat_ofNat, Nat.mod_eq_of_lt ha, Nat.mod_eq_of_lt hb] using this

theorem add_left_cancel' {a b c : BitVec 64} (h : a + b = a + c) : b = c := by
  have := congrArg (fun x => -a + x) h
  simpa [← BitVec.add_assoc, BitVec.add_left_neg] using this

/-- The low 45 bits of the start of the counter are those of the clock. -/
theorem firstId_low (pid us : BitVec 64) : (firstId pid us).toNat % 2 ^ 45 = us.toNat % 2 ^ 45 := by
  have key : (firstId pid us).setWidth 45 = us.setWidth 45 := by
    apply BitVec.eq_of_getLsbD_eq
    intro i hi
    simp only [firstId, BitVec.getLsbD_setWidth, BitVec.getLsbD_or, BitVec.getLsbD_shiftLeft, BitVec.getLsbD_sshiftRight]
    have h1 : i < 64 := by omega
    have h2 : 17 + i < 64 := by omega
    have h3 : ¬ (17 + i < 17) := by omega
    have h4 : ¬ (64 ≤ i) := by omega
    simp [hi, h1, h2, h3, h4]
  have := congrArg BitVec.toNat key
  simpa [BitVec.toNat_setWidth] using this

end Braft.Service

namespace Braft.Props
open Braft.Service
variable {D N : Type} [DecidableEq N]

/-- C59. An id is handed out once. -/
theorem reader_ids_unique {pid us : BitVec 64} {s : Service.State D N} (h : Service.Run pid us s) (hl : s.given.length < 2 ^ 64)
    (i j : Nat) (hi : i < s.given.length) (hj : j < s.given.length) (e : (s.given[i]).1 = (s.given[j]).1) : i = j := by
  have h1 := h.inv.ids i hi
  have h2 := h.inv.ids j hj
  rw [h1, h2] at e
  exact ofNat_inj (by omega) (by omega) (add_left_cancel' e)

/-- C59. What an id serves is the snapshot that was registered under it: its directory, a file of its table or the table. -/
theorem get_file_serves_registered {pid us : BitVec 64} {s : Service.State D N} (h : Service.Run pid us s)
    (hl : s.given.length < 2 ^ 64) (metaFile name : N) (id : BitVec 64) (off count : Int) (r : Service.Reader D N)
    (hr : (id, r) ∈ s.given) :
    (∀ d n, s.get metaFile id name off count = .file d n → d = r.dir ∧ n = name ∧ n ∈ r.files ∧ n ≠ metaFile) ∧
    (∀ d, s.get metaFile id name off count = .table d → d = r.dir ∧ name = metaFile) := by
  have uniq : ∀ r', s.map id = some r' → r' = r := by
    intro r' hm
    have hk := h.inv.known id r' hm
    obtain ⟨a, ha, ea⟩ := List.getElem_of_mem hk
    obtain ⟨b, hb, eb⟩ := List.getElem_of_mem hr
    have := reader_ids_unique h hl a b ha hb (by rw [ea, eb])
    subst this
    rw [ea] at eb
    exact (Prod.mk.inj eb).2
  constructor
  · intro d n e
    unfold Service.State.get at e
    split at e
    · simp at e
    · rename_i r' hm
      have := uniq r' hm
      subst this
      split at e
      · simp at e
      · split at e
        · simp at e
        · rename_i hne
          split at e
          · rename_i hf
            simp only [Answer.file.injEq] at e
            obtain ⟨rfl, rfl⟩ := e
            exact ⟨rfl, rfl, hf, hne⟩
          · simp at e
  · intro d e
    unfold Service.State.get at e
    split at e
    · simp at e
    · rename_i r' hm
      have := uniq r' hm
      subst this
      split at e
      · simp at e
      · split at e
        · rename_i hn
          simp only [Answer.table.injEq] at e
          exact ⟨e.symm, hn⟩
        · split at e <;> simp at e

/-- C59. A file that is not in the table of the snapshot is refused. -/
theorem get_file_refuses_unlisted (s : Service.State D N) (metaFile name : N) (id : BitVec 64) (off count : Int)
    (r : Service.Reader D N) (hr : s.map id = some r) (hn : name ∉ r.files) (hm : name ≠ metaFile) :
    s.get metaFile id name off count = .eperm ∨ s.get metaFile id name off count = .erequest := by
  unfold Service.State.get
  rw [hr]
  by_cases hc : count ≤ 0 ∨ off < 0
  · exact Or.inr (by simp only [if_pos hc])
  · exact Or.inl (by simp only [if_neg hc, if_neg hm, if_neg hn])

theorem Later.run {pid us : BitVec 64} {s t : Service.State D N} (h : Service.Run pid us s) (hl : Service.Later s t) :
    Service.Run pid us t ∧ s.given.length ≤ t.given.length ∧ (s.given <+: t.given) := by
  induction hl with
  | refl => exact ⟨h, Nat.le_refl _, List.prefix_rfl⟩
  | @add t hh r ih =>
    obtain ⟨a, b, c⟩ := ih
    refine ⟨a.add r, ?_, c.trans (List.prefix_append _ _)⟩
    simp only [Service.State.add, List.length_append]; omega
  | @remove t hh id ih =>
    obtain ⟨a, b, c⟩ := ih
    exact ⟨a.remove id, b, c⟩

/-- C59. A reader that was removed is never served again under its id: every later request fails with ENOENT. -/
theorem removed_reader_stays_away {pid us : BitVec 64} {s t : Service.State D N} (h : Service.Run pid us s) (id : BitVec 64)
    (r : Service.Reader D N) (hr : (id, r) ∈ s.given) (hl : Service.Later (s.remove id).1 t) (hb : t.given.length < 2 ^ 64)
    (metaFile name : N) (off count : Int) : t.get metaFile id name off count = .enoent := by
  have none : ∀ t, Service.Later (s.remove id).1 t → t.given.length < 2 ^ 64 → t.map id = none := by
    intro t hl
    induction hl with
    | refl => intro _; simp [Service.State.remove]
    | @add t hh r' ih =>
      intro hb
      have hlen : t.given.length + 1 < 2 ^ 64 := by
        simpa [Service.State.add] using hb
      have ht := Later.run (h.remove id) hh
      have hne : id ≠ t.next := by
        intro e
        have hmem : (id, r) ∈ t.given := ht.2.2.subset (by simpa [Service.State.remove] using hr)
        obtain ⟨a, ha, ea⟩ := List.getElem_of_mem hmem
        have h1 := ht.1.inv.ids a ha
        rw [ea] at h1
        have h2 := ht.1.inv.next
        simp only at h1
        rw [e, h2] at h1
        have := ofNat_inj (by omega) (by omega) (add_left_cancel' h1)
        omega
      show (if id = t.next then some r' else t.map id) = _
      rw [if_neg hne]
      exact ih (by omega)
    | @remove t hh id' ih =>
      intro hb
      show (if id = id' then _ else t.map id) = _
      split
      · rfl
      · exact ih hb
  unfold Service.State.get
  rw [none t hl hb]

/-- C59. An id of an earlier process is not one of this process, if the clocks at their starts differ, modulo 2^45
microseconds (407 days), by at least as many microseconds as ids were handed out. -/
theorem reader_ids_across_restart {pid us pid' us' : BitVec 64} {s s' : Service.State D N} (h : Service.Run pid us s)
    (h' : Service.Run pid' us' s') (gap : Nat) (hgap : us'.toNat = us.toNat + gap)
    (h1 : s.given.length ≤ gap) (h2 : gap + s'.given.length ≤ 2 ^ 45)
    (i j : Nat) (hi : i < s.given.length) (hj : j < s'.given.length) : (s.given[i]).1 ≠ (s'.given[j]).1 := by
  intro e
  rw [h.inv.ids i hi, h'.inv.ids j hj] at e
  have e1 := congrArg (fun x : BitVec 64 => x.toNat % 2 ^ 45) e
  simp only [BitVec.toNat_add, BitVec.toNat_ofNat] at e1
  have f1 := firstId_low pid us
  have f2 := firstId_low pid' us'
  omega

namespace ServiceEx

abbrev S := Service.State Nat Nat
def a : Service.Reader Nat Nat := ⟨10, [1, 2]⟩
def b : Service.Reader Nat Nat := ⟨20, [1]⟩

def s0 : S := State.init 4711#64 1763400000000000#64
def s2 : S := ((s0.add a).1.add b).1
def id0 : BitVec 64 := (s0.add a).2

theorem run2 : Service.Run 4711#64 1763400000000000#64 s2 := (Run.init.add a).add b

/-- Non-vacuity: two readers, one removed. -/
example : s2.given.map Prod.snd = [a, b] ∧ (id0, a) ∈ s2.given ∧ s2.get 0 id0 2 0 8 = .file 10 2 ∧
    s2.get 0 (id0 + 1) 2 0 8 = .eperm ∧ s2.get 0 (id0 + 1) 0 0 8 = .table 20 ∧
    (s2.remove id0).1.get 0 id0 2 0 8 = .enoent := by decide +kernel

end ServiceEx
end Braft.Props
