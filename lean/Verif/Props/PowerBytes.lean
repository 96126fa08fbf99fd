import Verif.Store.Power
/-!
# C66, continued: when append_entries syncs

With the policy "by bytes" the storage counts the bytes it wrote to a segment since it last synced it. The counter is what was
written, and an append that succeeds syncs as soon as the counter reaches the limit, or the append carries a configuration.
-/
set_option linter.unusedVariables false
set_option linter.unusedSimpArgs false
namespace Braft.Props.Power
open Braft.Store
variable {K : Type}

/-- Specification: the bytes calls write to the segment that starts at `f`. -/
def bytesTo (f : Nat) : List Act → Nat
  | [] => 0
  | .write g bs :: l => (if g = f then bs.length else 0) + bytesTo f l
  | _ :: l => bytesTo f l

theorem counter (as : List Act) (uns : Nat → Nat) (f : Nat) (hc : Act.create f ∉ as) :
    unsAll uns as f = uns f + bytesTo f as := by
  unfold unsAll
  induction as generalizing uns with
  | nil => rfl
  | cons a as ih =>
    have hc' : Act.create f ∉ as := fun h => hc (List.mem_cons_of_mem _ h)
    rw [List.foldl_cons, ih _ hc']
    cases a with
    | create g =>
      have : f ≠ g := by intro e; subst e; exact hc List.mem_cons_self
      show upd uns g 0 f + _ = _
      unfold upd; rw [if_neg this]; rfl
    | write g bs =>
      show upd uns g (uns g + bs.length) f + _ = _
      simp only [bytesTo, upd]
      by_cases e : f = g
      · subst e; simp; omega
      · rw [if_neg e, if_neg (fun x => e x.symm)]; omega
    | _ => rfl

theorem counter_new (as bs : List Act) (uns : Nat → Nat) (f : Nat) (hc : Act.create f ∉ bs) :
    unsAll uns (as ++ .create f :: bs) f = bytesTo f bs := by
  have e : unsAll uns (as ++ .create f :: bs) = unsAll (upd (unsAll uns as) f 0) bs := by
    unfold unsAll; rw [List.foldl_append, List.foldl_cons]; rfl
  rw [e, counter bs _ f hc]
  unfold upd; rw [if_pos rfl]; omega

/-- C66. An append that succeeds either ends with a sync of the open segment and a counter of zero, or the counter is what was
written since the counter was zero, less than the limit, and the append carries no configuration. (If the flags ask for syncs at
all; that the syncs are made with `raft_sync` and not only with `raft_sync_policy` is the code.) -/
theorem C66_sync_when_due (c : Codec K) (fl : SyncFlags) (maxSeg : Nat) (m : Mem) (uns : Nat → Nat) (idx : Nat)
    (es : List (Entry K)) (he : es ≠ []) (hok : (c.appendP fl maxSeg true m uns idx es).2.2.2 = some es.length)
    (hf : fl.enable = true ∧ fl.raftSync = true) (o : Seg) (ho : (c.appendP fl maxSeg true m uns idx es).1.opn = some o) :
    ((c.appendP fl maxSeg true m uns idx es).2.2.1.getLast? = some (.fsync o.first) ∧
      (c.appendP fl maxSeg true m uns idx es).2.1 o.first = 0) ∨
    (fl.byBytes = true ∧ (∀ e ∈ es, e.isConf = false) ∧ (c.appendP fl maxSeg true m uns idx es).2.1 o.first < fl.perBytes ∧
      (Act.create o.first ∉ (c.appendEntries maxSeg m idx es).2.1 →
        (c.appendP fl maxSeg true m uns idx es).2.1 o.first =
          uns o.first + bytesTo o.first (c.appendEntries maxSeg m idx es).2.1) ∧
      (∀ as bs, (c.appendEntries maxSeg m idx es).2.1 = as ++ .create o.first :: bs → Act.create o.first ∉ bs →
        (c.appendP fl maxSeg true m uns idx es).2.1 o.first = bytesTo o.first bs)) := by
  have key : (c.appendP fl maxSeg true m uns idx es) =
      ((c.appendEntries maxSeg m idx es).1,
        fl.endUns (unsAll uns (c.appendEntries maxSeg m idx es).2.1) (c.appendEntries maxSeg m idx es).1 (es.any Entry.isConf),
        fl.allActs (c.appendEntries maxSeg m idx es).2.1 ++
          fl.endSync (unsAll uns (c.appendEntries maxSeg m idx es).2.1) (c.appendEntries maxSeg m idx es).1
            (es.any Entry.isConf) true,
        (c.appendEntries maxSeg m idx es).2.2) := by
    unfold Codec.appendP at hok ⊢
    dsimp only at hok ⊢
    split
    · rename_i h
      rw [if_pos h] at hok
      dsimp only at hok
      rcases h with h | h
      · rw [List.isEmpty_iff] at h; exact absurd h he
      · exact absurd hok h
    · rfl
  rw [key] at ho ⊢
  dsimp only at ho ⊢
  generalize hr : c.appendEntries maxSeg m idx es = r at ho ⊢
  unfold SyncFlags.endUns SyncFlags.endSync
  rw [ho]
  dsimp only
  cases hw : fl.wants (unsAll uns r.2.1 o.first) (es.any Entry.isConf) with
  | true =>
    left
    simp [upd]
  | false =>
    right
    unfold SyncFlags.wants at hw
    rw [hf.1, hf.2] at hw
    simp at hw
    obtain ⟨⟨hb, hlt⟩, hcf⟩ := hw
    simp only [Bool.false_eq_true, if_false]
    refine ⟨hb, ?_, hlt, ?_, ?_⟩
    · intro e hem; exact hcf e hem
    · intro hc; exact counter _ _ _ hc
    · intro as bs e hc; rw [e]; exact counter_new _ _ _ _ hc

end Braft.Props.Power
