import Verif.Store.PowerAppend
/-
C66: acknowledged entries survive a power failure, under the conditions the code needs for it, and what
happens without them.

The specification of the operations and of a crash (`LogOp`, `arrApply`, `OpOk`, `CrashRes`, `Shows`) is
that of C21 and C22 in Props/Store.lean.
-/
set_option linter.unusedVariables false
set_option linter.unusedSimpArgs false
set_option linter.unusedSectionVars false

namespace Braft.Props
open Braft.Store

namespace Power

variable {K : Type}

/-- A storage is up, with the array of the specification, or down (not started). -/
inductive St (K : Type) where
  | up (m : Mem) (uns : Nat → Nat) (A : Arr K)
  | down

/-- An operation with its syncs, all of which succeed: memory, counters of unsynced bytes, calls. -/
def exec (c : Codec K) (fl : SyncFlags) (maxSeg : Nat) (m : Mem) (uns : Nat → Nat) :
    LogOp K → Mem × (Nat → Nat) × List PAct
  | .append es =>
    let r := c.appendP fl maxSeg true m uns (m.last + 1) es
    (r.1, r.2.1, r.2.2.1)
  | .truncPrefix k => ((truncatePrefix m k).1, uns, fl.allActs (truncatePrefix m k).2)
  | .truncSuffix k => ((truncateSuffix m k).1, uns, fl.allActs (truncateSuffix m k).2.1)
  | .reset n => ((resetLog m n).1, uns, fl.allActs (resetLog m n).2)

/-! ### Specification -/

/-- The entry with an index. -/
def entryAt (A : Arr K) (i : Nat) : Option (Entry K) := if A.first ≤ i then A.ents[i - A.first]? else none

/-- What a power failure (or a kill) during an operation may leave, if `S` could be left before. -/
def during (S : Arr K → Prop) (A : Arr K) (o : LogOp K) : Arr K → Prop := fun B => S B ∨ CrashRes A o B

/-- What may be left after an operation has returned: after a (nonempty) append exactly the new log. -/
def after (S : Arr K → Prop) (A : Arr K) : LogOp K → Arr K → Prop
  | .append (e :: es) => fun B => B = arrApply A (.append (e :: es))
  | o => during S A o

/-- The entries that append_entries has acknowledged and no operation begun since was meant to remove. -/
def ackedDuring (G : Nat → Entry K → Prop) : LogOp K → Nat → Entry K → Prop
  | .append _ => G
  | .truncPrefix k => fun i e => G i e ∧ k ≤ i
  | .truncSuffix k => fun i e => G i e ∧ i ≤ k
  | .reset _ => fun _ _ => False

/-- ... after an operation: append_entries acknowledges the whole log. -/
def ackedAfter (G : Nat → Entry K → Prop) (A : Arr K) : LogOp K → Nat → Entry K → Prop
  | .append (e :: es) => fun i x => entryAt (arrApply A (.append (e :: es))) i = some x
  | o => ackedDuring G o

/-- raft_sync is on with the policy "immediately". -/
def Immediate (fl : SyncFlags) : Prop := fl.raftSync = true ∧ fl.enable = true ∧ fl.byBytes = false

/-- Histories with operations, kills of the process and power failures at any point, and restarts, which
may themselves be interrupted. Index: state, directory, arrays a power failure could leave, acknowledged
entries. Two conditions exclude what the code gets wrong: no segment is closed while it has unsynced bytes
(`ClosesSynced`), and the process is not killed (without the power failing as well) while there are
unsynced bytes (`Clean`). -/
inductive Hist (c : Codec K) (fl : SyncFlags) (maxSeg : Nat) (recover : Bool) :
    St K → PDisk → (Arr K → Prop) → (Nat → Entry K → Prop) → Prop
  | start : Hist c fl maxSeg recover .down (Disk.durable ⟨none, [], []⟩) (fun B => B = ⟨1, []⟩) (fun _ _ => False)
  | boot (p S G acts m confs B) : Hist c fl maxSeg recover .down p S G →
      c.init recover p.now.d = (acts, some (m, confs)) → Shows c (m, applyAll p.now.d acts) B →
      Hist c fl maxSeg recover (.up m (fun _ => 0) B) (p.run (fl.allActs acts)) S G
  | bootKill (p S G pre) : Hist c fl maxSeg recover .down p S G →
      pre <+: fl.allActs (c.init recover p.now.d).1 →
      Hist c fl maxSeg recover .down (p.run pre) S G
  | bootPower (p S G pre d') : Hist c fl maxSeg recover .down p S G →
      pre <+: fl.allActs (c.init recover p.now.d).1 → (p.run pre).Fail d' →
      Hist c fl maxSeg recover .down d'.durable S G
  | op (m uns A p S G) (o : LogOp K) : Hist c fl maxSeg recover (.up m uns A) p S G → OpOk c A o →
      (∀ n, o = .reset n → A.first + A.ents.length ≤ n) →
      ClosesSynced p (exec c fl maxSeg m uns o).2.2 →
      Hist c fl maxSeg recover
        (.up (exec c fl maxSeg m uns o).1 (exec c fl maxSeg m uns o).2.1 (arrApply A o))
        (p.run (exec c fl maxSeg m uns o).2.2) (after S A o) (ackedAfter G A o)
  | kill (m uns A p S G) (o : LogOp K) (pre) : Hist c fl maxSeg recover (.up m uns A) p S G → OpOk c A o →
      (∀ n, o = .reset n → A.first + A.ents.length ≤ n) →
      ClosesSynced p (exec c fl maxSeg m uns o).2.2 → pre <+: (exec c fl maxSeg m uns o).2.2 →
      (p.run pre).now.Clean →
      Hist c fl maxSeg recover .down (p.run pre) (during S A o) (ackedDuring G o)
  | power (m uns A p S G) (o : LogOp K) (pre d') : Hist c fl maxSeg recover (.up m uns A) p S G → OpOk c A o →
      (∀ n, o = .reset n → A.first + A.ents.length ≤ n) →
      ClosesSynced p (exec c fl maxSeg m uns o).2.2 → pre <+: (exec c fl maxSeg m uns o).2.2 →
      (p.run pre).Fail d' →
      Hist c fl maxSeg recover .down d'.durable (during S A o) (ackedDuring G o)

/-! ### Invariant -/

/-- A directory from which a restart shows `B`. -/
def Opens (c : Codec K) (d : Disk) (B : Arr K) : Prop := DiskRep c d B ∨ (d = ⟨none, [], []⟩ ∧ B = ⟨1, []⟩)

def Q (c : Codec K) (S : Arr K → Prop) (d : Disk) : Prop := ∃ B, S B ∧ Opens c d B

def DownInv (c : Codec K) (p : PDisk) (S : Arr K → Prop) : Prop :=
  p.now.Clean ∧ AllLost (Q c S) p

def UpInv (c : Codec K) (m : Mem) (A : Arr K) (p : PDisk) (S : Arr K → Prop) : Prop :=
  Rep c m p.now.d A ∧ p.now.Clean ∧ AllLost (Q c S) p

def Inv (c : Codec K) : St K → PDisk → (Arr K → Prop) → Prop
  | .up m _ A, p, S => UpInv c m A p S
  | .down, p, S => DownInv c p S

theorem DownInv.now {c : Codec K} {p : PDisk} {S : Arr K → Prop} (h : DownInv c p S) : Q c S p.now.d :=
  h.2 _ ⟨p.now, Or.inl rfl, lost_self _⟩

/-! #### No operation other than append writes -/

theorem unlink_no_write (l : List Seg) (f : Nat) (bs : Bytes) : Act.write f bs ∉ l.map Seg.unlink := by
  intro h
  obtain ⟨s, _, hs⟩ := List.mem_map.mp h
  unfold Seg.unlink at hs
  split at hs <;> cases hs

theorem listClosed_no_write (first : Nat) (li : Option Nat) (fs : List CFile) (f : Nat) (bs : Bytes) :
    Act.write f bs ∉ (listClosed first li fs).1 := by
  induction fs generalizing li with
  | nil => simp [listClosed]
  | cons x xs ih =>
    unfold listClosed
    split
    · simp
    · split
      · split
        · simp
        · exact ih _
      · split
        · simp
        · split
          · dsimp only
            intro h
            rcases List.mem_cons.mp h with h | h
            · cases h
            · exact ih _ h
          · exact ih _

theorem loadClosed_no_write (c : Codec K) (recover : Bool) (last : Nat) (fs : List CFile) (r)
    (hr : c.loadClosed recover last fs = some r) (f : Nat) (bs : Bytes) : Act.write f bs ∉ r.2.2.1 := by
  induction fs generalizing last r with
  | nil =>
    simp only [Codec.loadClosed, Option.some.injEq] at hr
    subst hr; simp
  | cons x xs ih =>
    unfold Codec.loadClosed at hr
    split at hr
    · cases hr
    · split at hr
      · cases hr
      · rename_i heq2
        simp only [Option.some.injEq] at hr
        subst hr
        dsimp only
        have := ih _ _ heq2
        dsimp only at this
        intro h
        rcases List.mem_append.mp h with h | h
        · split at h
          · simp only [List.mem_singleton] at h; cases h
          · cases h
        · exact this h

theorem init_no_write (c : Codec K) (recover : Bool) (d : Disk) (f : Nat) (bs : Bytes) :
    Act.write f bs ∉ (c.init recover d).1 := by
  unfold Codec.init
  have hlc := fun first => listClosed_no_write first none d.closed f bs
  split
  · dsimp only
    intro h
    simp only [List.mem_append, List.mem_map, List.mem_singleton] at h
    rcases h with (⟨x, _, h⟩ | ⟨x, _, h⟩) | h <;> cases h
  · rename_i first _
    split
    · simp
    · dsimp only
      split
      · exact hlc first
      · split
        · exact hlc first
        · rename_i heq
          have hld := loadClosed_no_write c recover _ _ _ heq f bs
          dsimp only at hld
          have hap : ∀ l : List Act, Act.write f bs ∉ l →
              Act.write f bs ∉ (listClosed first none d.closed).1 ++ l := by
            intro l hl h
            rcases List.mem_append.mp h with h | h
            · exact hlc first h
            · exact hl h
          split
          · exact hap _ hld
          · split
            · exact hap _ hld
            · have hcut : ∀ g n (P : Prop) [Decidable P], Act.write f bs ∉ (if P then [Act.cut g n] else []) := by
                intro g n P _
                split
                · simp
                · simp
              split
              · intro h
                simp only [List.mem_append, List.mem_singleton] at h
                rcases h with ((h | h) | h) | h
                · exact hlc first h
                · exact hld h
                · exact hcut _ _ _ h
                · cases h
              · intro h
                simp only [List.mem_append] at h
                rcases h with (h | h) | h
                · exact hlc first h
                · exact hld h
                · exact hcut _ _ _ h

theorem truncateSuffix_no_write (m : Mem) (k f : Nat) (bs : Bytes) : Act.write f bs ∉ (truncateSuffix m k).2.1 := by
  unfold truncateSuffix
  have hu := fun l => unlink_no_write l f bs
  split
  · exact hu _
  · split
    · split
      · exact hu _
      · split
        · dsimp only
          intro h
          rcases List.mem_append.mp h with h | h
          · exact hu _ h
          · simp only [List.mem_singleton] at h; cases h
        · dsimp only
          intro h
          rcases List.mem_append.mp h with h | h
          · exact hu _ h
          · simp only [List.mem_cons, List.not_mem_nil, or_false] at h
            rcases h with h | h <;> cases h
    · exact hu _

theorem truncatePrefix_no_write (m : Mem) (k f : Nat) (bs : Bytes) : Act.write f bs ∉ (truncatePrefix m k).2 := by
  unfold truncatePrefix
  split
  · simp
  · dsimp only
    intro h
    rcases List.mem_cons.mp h with h | h
    · cases h
    · exact unlink_no_write _ f bs h

theorem resetLog_no_write (m : Mem) (k f : Nat) (bs : Bytes) : Act.write f bs ∉ (resetLog m k).2 := by
  unfold resetLog
  dsimp only
  intro h
  rcases List.mem_cons.mp h with h | h
  · cases h
  · exact unlink_no_write _ f bs h

/-! #### The steps -/

/-- A restart. -/
theorem boot_inv (c : Codec K) (fl : SyncFlags) (recover : Bool) (p : PDisk) (S : Arr K → Prop) (h : DownInv c p S) :
    ∃ acts m confs B, c.init recover p.now.d = (acts, some (m, confs)) ∧ S B ∧
      Always (Q c S) p (fl.allActs acts) ∧ (p.run (fl.allActs acts)).now.Clean ∧
      (p.run (fl.allActs acts)).now.d = applyAll p.now.d acts ∧ Rep c m (applyAll p.now.d acts) B ∧
      (∀ d', Crash d' p.now.d acts → Q c S d' ∧ Keys d') := by
  obtain ⟨B, hS, hO⟩ := h.now
  have key : ∀ acts m confs, c.init recover p.now.d = (acts, some (m, confs)) → Rep c m (applyAll p.now.d acts) B →
      (∀ d', Crash d' p.now.d acts → Q c S d' ∧ Keys d') →
      ∃ acts m confs B, c.init recover p.now.d = (acts, some (m, confs)) ∧ S B ∧
      Always (Q c S) p (fl.allActs acts) ∧ (p.run (fl.allActs acts)).now.Clean ∧
      (p.run (fl.allActs acts)).now.d = applyAll p.now.d acts ∧ Rep c m (applyAll p.now.d acts) B ∧
      (∀ d', Crash d' p.now.d acts → Q c S d' ∧ Keys d') := by
    intro acts m confs h1 h2 h3
    have hw : ∀ f bs, Act.write f bs ∉ acts := by
      intro f bs hb
      have := init_no_write c recover p.now.d f bs
      rw [h1] at this
      exact this hb
    obtain ⟨a1, a2, a3⟩ := clean_run fl (Q c S) acts p hw h.1 h3 h.2
    exact ⟨acts, m, confs, B, h1, hS, a1, a2, a3, h2, h3⟩
  rcases hO with hO | ⟨hd, hB⟩
  · obtain ⟨acts, m, stale, h1, _, h2, h3⟩ := init_rep c recover p.now.d B hO
    exact key acts m _ h1 h2 (fun d' hc => ⟨⟨B, hS, Or.inl (h3 d' hc)⟩, (h3 d' hc).keys⟩)
  · have hi : c.init recover p.now.d = ([.saveMeta 1], some (⟨1, 0, [], none⟩, [])) := by rw [hd]; rfl
    have hap : applyAll p.now.d [.saveMeta 1] = ⟨some 1, [], []⟩ := by rw [hd]; rfl
    have hre : Rep c ⟨1, 0, [], none⟩ ⟨some 1, [], []⟩ (⟨1, []⟩ : Arr K) := empty_rep c 1 (Nat.le_refl _) []
    refine key _ _ _ hi (by rw [hap, hB]; exact hre) ?_
    intro d' hc
    rcases hc with hc | hc | hc
    · rw [hc]
      refine ⟨⟨B, hS, Or.inr ⟨hd, hB⟩⟩, ?_⟩
      rw [hd]
      exact ⟨fun x hx => (by cases hx), fun x hx => (by cases hx), fun x hx => (by cases hx)⟩
    · exact hc.elim
    · have hc' : d' = ⟨some 1, [], []⟩ := hc.trans hap
      rw [hc']
      exact ⟨⟨B, hS, Or.inl (by rw [hB]; exact hre.disk)⟩, hre.disk.keys⟩

/-- An operation: what is left at every point of it, and the state after it. -/
theorem exec_inv (c : Codec K) (fl : SyncFlags) (maxSeg : Nat) (hi : Immediate fl) (m : Mem) (uns : Nat → Nat)
    (A : Arr K) (p : PDisk) (S : Arr K → Prop) (h : UpInv c m A p S) (o : LogOp K) (ho : OpOk c A o)
    (hres : ∀ n, o = .reset n → A.first + A.ents.length ≤ n)
    (hcs : ClosesSynced p (exec c fl maxSeg m uns o).2.2) :
    Always (Q c (during S A o)) p (exec c fl maxSeg m uns o).2.2 ∧
    UpInv c (exec c fl maxSeg m uns o).1 (arrApply A o) (p.run (exec c fl maxSeg m uns o).2.2) (after S A o) := by
  obtain ⟨hrep, hcl, hlost⟩ := h
  have hlost' : AllLost (Q c (during S A o)) p :=
    hlost.mono (fun d ⟨B, h1, h2⟩ => ⟨B, Or.inl h1, h2⟩)
  obtain ⟨hr1, hr2⟩ := exec_rep c maxSeg m p.now.d A hrep o ho
  -- operations without writes
  have quiet : ∀ (acts : List Act), (logExec c maxSeg m o).2 = acts → (exec c fl maxSeg m uns o).2.2 = fl.allActs acts →
      (exec c fl maxSeg m uns o).1 = (logExec c maxSeg m o).1 → after S A o = during S A o →
      (∀ f bs, Act.write f bs ∉ acts) →
      Always (Q c (during S A o)) p (exec c fl maxSeg m uns o).2.2 ∧
      UpInv c (exec c fl maxSeg m uns o).1 (arrApply A o) (p.run (exec c fl maxSeg m uns o).2.2) (after S A o) := by
    intro acts ha he hm haf hw
    rw [ha] at hr1 hr2
    obtain ⟨a1, a2, a3⟩ := clean_run fl (Q c (during S A o)) acts p hw hcl (by
      intro d' hc
      obtain ⟨B, h1, h2⟩ := hr2 hres d' hc
      exact ⟨⟨B, Or.inr h1, Or.inl h2⟩, h2.keys⟩) hlost'
    rw [he, hm, haf]
    exact ⟨a1, by rw [a3]; exact hr1, a2, a1.done⟩
  cases o with
  | truncPrefix k => exact quiet _ rfl rfl rfl rfl (fun f bs => truncatePrefix_no_write m k f bs)
  | truncSuffix k => exact quiet _ rfl rfl rfl rfl (fun f bs => truncateSuffix_no_write m k f bs)
  | reset n => exact quiet _ rfl rfl rfl rfl (fun f bs => resetLog_no_write m n f bs)
  | append es =>
    cases es with
    | nil => exact quiet [] rfl rfl rfl rfl (fun f bs => by simp)
    | cons e es =>
      -- the parts of append_entries
      have hn := (appendLoop_rep c maxSeg (e :: es) m p.now.d A hrep ho).2.1
      have hae : c.appendEntries maxSeg m (m.last + 1) (e :: es) =
          ((c.appendLoop maxSeg m (e :: es)).1, (c.appendLoop maxSeg m (e :: es)).2.1, some (e :: es).length) := by
        simp only [Codec.appendEntries, ne_eq, not_true_eq_false, if_false, hn]
      have hex : exec c fl maxSeg m uns (.append (e :: es)) =
          ((c.appendLoop maxSeg m (e :: es)).1,
           fl.endUns (unsAll uns (c.appendLoop maxSeg m (e :: es)).2.1) (c.appendLoop maxSeg m (e :: es)).1
             ((e :: es).any Entry.isConf),
           fl.allActs (c.appendLoop maxSeg m (e :: es)).2.1 ++
             fl.endSync (unsAll uns (c.appendLoop maxSeg m (e :: es)).2.1) (c.appendLoop maxSeg m (e :: es)).1
               ((e :: es).any Entry.isConf) true) := by
        unfold exec Codec.appendP
        simp only [hae]
        simp
      rw [hex] at hcs ⊢
      dsimp only at hcs ⊢
      obtain ⟨hcs1, _⟩ := closesSynced_append _ _ _ hcs
      obtain ⟨base, chunks, oc, hat⟩ := rep_at hrep
      have hloop : Loop c p A [] base chunks oc := by
        refine ⟨by simpa using hat.lay, hcl.1, ?_⟩
        intro xs hx
        refine ⟨xs.length, Nat.le_refl _, ?_, ?_⟩
        · rw [List.take_length]
          have hm : (base + total chunks, c.encodeAll xs) ∈ p.now.d.opens := by
            rw [hat.disk, hx]; simp [Codec.mkDisk]
          exact hcl.2 _ hm
        · have := hat.last
          rw [hx] at this
          simp only [Option.getD_some] at this
          omega
      obtain ⟨l1, chunks', oc', l2, l3, l4⟩ := appendLoop_always c fl maxSeg A (Q c (during S A (.append (e :: es))))
        (e :: es) [] m p ho base chunks oc (by simpa using hat) hloop (by
          intro j d' hj hd
          refine ⟨_, Or.inr ⟨j, by simpa using hj, rfl⟩, Or.inl ?_⟩
          simpa using hd) hlost' hcs1
      rw [List.nil_append] at l2 l3
      -- the last segment
      cases hoc : oc' with
      | none => exact absurd hoc (l4 (by simp))
      | some xs =>
        rw [hoc] at l2 l3
        have hopn : (c.appendLoop maxSeg m (e :: es)).1.opn = some (c.segOf (base + total chunks') true xs) := by
          rw [l2.mem]; rfl
        have hes : fl.endSync (unsAll uns (c.appendLoop maxSeg m (e :: es)).2.1) (c.appendLoop maxSeg m (e :: es)).1
            ((e :: es).any Entry.isConf) true = [.fsync (base + total chunks')] := by
          unfold SyncFlags.endSync
          rw [hopn]
          have hwn : ∀ u b, fl.wants u b = true := by
            intro u b
            unfold SyncFlags.wants
            rw [hi.1, hi.2.1, hi.2.2]; simp
          simp only [hwn, if_true]
          rfl
        rw [hes, run_append]
        have hall := l1.done
        refine ⟨always_append l1 (always_cons hall (always_nil (allLost_fsync _ hall))), ?_⟩
        show UpInv c _ (arrApply A (.append (e :: es))) ((p.run _).step (.fsync (base + total chunks'))) _
        generalize hq : p.run (fl.allActs (c.appendLoop maxSeg m (e :: es)).2.1) = q at *
        have hrepq : Rep c (c.appendLoop maxSeg m (e :: es)).1 q.now.d (arrApply A (.append (e :: es))) := by
          exact l2.rep
        have hclean : (q.step (.fsync (base + total chunks'))).now.Clean := by
          refine ⟨closedClean_fsync _ _ l3.cc, ?_⟩
          intro x hx
          have hx' : x ∈ q.now.d.opens := hx
          rw [l3.lay.disk] at hx'
          simp only [Codec.mkDisk, List.mem_singleton] at hx'
          have hx1 : x.1 = base + total chunks' := by rw [hx']
          show _ ≤ upd q.now.syn (base + total chunks') (q.now.d.lenOf (base + total chunks')) x.1
          rw [hx1, upd_self, ← hx1]
          exact lenOf_open q.now.d x hx
        refine ⟨hrepq, hclean, ?_⟩
        rintro d' ⟨s, hs, hl⟩
        rcases hs with hs | hs
        · rw [hs] at hl
          have hd' : d' = q.now.d := clean_lost _ hclean d' hl
          rw [hd']
          exact ⟨_, rfl, Or.inl hrepq.disk⟩
        · cases hs

theorem fail_down (c : Codec K) (p : PDisk) (S : Arr K → Prop) (h : AllLost (Q c S) p) (d' : Disk) (hf : p.Fail d') :
    DownInv c d'.durable S := by
  refine ⟨durable_clean d', ?_⟩
  rintro d'' ⟨s, hs, hl⟩
  rcases hs with hs | hs
  · rw [hs] at hl
    rw [clean_lost _ (durable_clean d') d'' hl]
    exact h d' hf
  · cases hs

theorem hist_inv (c : Codec K) (fl : SyncFlags) (maxSeg : Nat) (recover : Bool) (hi : Immediate fl) (s : St K)
    (p : PDisk) (S : Arr K → Prop) (G : Nat → Entry K → Prop) (h : Hist c fl maxSeg recover s p S G) :
    Inv c s p S := by
  induction h with
  | start =>
    refine ⟨durable_clean _, ?_⟩
    rintro d' ⟨s, hs, hl⟩
    rcases hs with hs | hs
    · rw [hs] at hl
      rw [clean_lost _ (durable_clean _) d' hl]
      exact ⟨_, rfl, Or.inr ⟨rfl, rfl⟩⟩
    · cases hs
  | boot p S G acts m confs B _ hini hB ih =>
    obtain ⟨acts', m', confs', B', h1, h2, h3, h4, h5, h6, _⟩ := boot_inv c fl recover p S ih
    rw [h1] at hini
    simp only [Prod.mk.injEq, Option.some.injEq] at hini
    obtain ⟨rfl, rfl, rfl⟩ := hini
    have := shows_unique c _ _ _ hB (rep_shows c m' _ B' h6)
    subst this
    exact ⟨by rw [h5]; exact h6, h4, h3.done⟩
  | bootKill p S G pre _ hpre ih =>
    obtain ⟨acts', m', confs', B', h1, h2, h3, h4, h5, h6, h7⟩ := boot_inv c fl recover p S ih
    rw [h1] at hpre
    dsimp only at hpre
    refine ⟨?_, h3 pre hpre⟩
    -- every prefix is clean
    have hw : ∀ f bs, Act.write f bs ∉ acts' := by
      intro f bs hb
      have := init_no_write c recover p.now.d f bs
      rw [h1] at this
      exact this hb
    exact clean_prefix fl (Q c S) acts' p hw ih.1 h7 pre hpre
  | bootPower p S G pre d' _ hpre hf ih =>
    obtain ⟨acts', m', confs', B', h1, h2, h3, h4, h5, h6, h7⟩ := boot_inv c fl recover p S ih
    rw [h1] at hpre
    exact fail_down c _ S (h3 pre hpre) d' hf
  | op m uns A p S G o _ ho hres hcs ih =>
    exact (exec_inv c fl maxSeg hi m uns A p S ih o ho hres hcs).2
  | kill m uns A p S G o pre _ ho hres hcs hpre hcl ih =>
    exact ⟨hcl, (exec_inv c fl maxSeg hi m uns A p S ih o ho hres hcs).1 pre hpre⟩
  | power m uns A p S G o pre d' _ ho hres hcs hpre hf ih =>
    exact fail_down c _ _ ((exec_inv c fl maxSeg hi m uns A p S ih o ho hres hcs).1 pre hpre) d' hf

/-! #### Acknowledged entries -/

theorem entryAt_take (A : Arr K) (j i : Nat) (e : Entry K) (h : entryAt A i = some e) (hj : i + 1 - A.first ≤ j) :
    entryAt (⟨A.first, A.ents.take j⟩ : Arr K) i = some e := by
  unfold entryAt at h ⊢
  by_cases hf : A.first ≤ i
  · rw [if_pos hf] at h ⊢
    dsimp only
    rw [List.getElem?_take_of_lt (by omega)]; exact h
  · rw [if_neg hf] at h; cases h

theorem entryAt_append (A : Arr K) (xs : List (Entry K)) (i : Nat) (e : Entry K) (h : entryAt A i = some e) :
    entryAt (⟨A.first, A.ents ++ xs⟩ : Arr K) i = some e := by
  unfold entryAt at h ⊢
  by_cases hf : A.first ≤ i
  · rw [if_pos hf] at h ⊢
    dsimp only
    have := (List.getElem?_eq_some_iff.mp h).1
    rw [List.getElem?_append_left this]; exact h
  · rw [if_neg hf] at h; cases h

theorem entryAt_drop (A : Arr K) (k i : Nat) (e : Entry K) (h : entryAt A i = some e) (hk : k ≤ i) :
    entryAt (arrApply A (.truncPrefix k)) i = some e := by
  simp only [arrApply]
  by_cases hkf : k ≤ A.first
  · rw [if_pos hkf]; exact h
  · rw [if_neg hkf]
    unfold entryAt at h ⊢
    by_cases hf : A.first ≤ i
    · rw [if_pos hf] at h
      dsimp only
      rw [if_pos hk, List.getElem?_drop, show k - A.first + (i - k) = i - A.first by omega]
      exact h
    · rw [if_neg hf] at h; cases h

/-- The operation keeps what it is meant to keep, at every point. -/
theorem during_keeps (A B : Arr K) (o : LogOp K) (G : Nat → Entry K → Prop) (i : Nat) (e : Entry K)
    (hA : G i e → entryAt A i = some e) (hg : ackedDuring G o i e) (hB : CrashRes A o B) : entryAt B i = some e := by
  cases o with
  | append es =>
    obtain ⟨j, _, rfl⟩ := hB
    exact entryAt_append A _ i e (hA hg)
  | truncPrefix k =>
    rcases hB with rfl | rfl
    · exact hA hg.1
    · exact entryAt_drop A k i e (hA hg.1) hg.2
  | truncSuffix k =>
    obtain ⟨j, hj, rfl⟩ := hB
    have := hg.2
    exact entryAt_take A j i e (hA hg.1) (by omega)
  | reset n => exact hg.elim

theorem during_sub (G : Nat → Entry K → Prop) (o : LogOp K) (i : Nat) (e : Entry K) (h : ackedDuring G o i e) : G i e := by
  cases o with
  | append es => exact h
  | truncPrefix k => exact h.1
  | truncSuffix k => exact h.1
  | reset n => exact h.elim

/-- Acknowledged entries are in everything that may be left, and in the log of a running storage. -/
theorem hist_acked (c : Codec K) (fl : SyncFlags) (maxSeg : Nat) (recover : Bool) (hi : Immediate fl) (s : St K)
    (p : PDisk) (S : Arr K → Prop) (G : Nat → Entry K → Prop) (h : Hist c fl maxSeg recover s p S G) (i : Nat)
    (e : Entry K) (hg : G i e) :
    (∀ B, S B → entryAt B i = some e) ∧ (∀ m uns A, s = .up m uns A → entryAt A i = some e) := by
  induction h with
  | start => exact hg.elim
  | boot p S G acts m confs B hh hini hB ih =>
    refine ⟨(ih hg).1, ?_⟩
    intro m1 uns1 A1 heq
    cases heq
    obtain ⟨acts', m', confs', B', h1, h2, _, _, _, h6, _⟩ := boot_inv c fl recover p S
      (hist_inv c fl maxSeg recover hi _ _ _ _ hh)
    rw [h1] at hini
    simp only [Prod.mk.injEq, Option.some.injEq] at hini
    obtain ⟨rfl, rfl, rfl⟩ := hini
    have := shows_unique c _ _ _ hB (rep_shows c m' _ B' h6)
    subst this
    exact (ih hg).1 _ h2
  | bootKill p S G pre _ hpre ih => exact ⟨(ih hg).1, fun _ _ _ he => by cases he⟩
  | bootPower p S G pre d' _ hpre hf ih => exact ⟨(ih hg).1, fun _ _ _ he => by cases he⟩
  | op m uns A p S G o hh ho hres hcs ih =>
    have common : ∀ o', o' = o → after S A o' = during S A o' → ackedAfter G A o' = ackedDuring G o' →
        CrashRes A o' (arrApply A o') →
        (∀ B, after S A o' B → entryAt B i = some e) ∧ entryAt (arrApply A o') i = some e := by
      intro o' ho' h1 h2 h3
      subst ho'
      rw [h2] at hg
      have hG := during_sub G o' i e hg
      refine ⟨?_, during_keeps A _ o' G i e (fun h => (ih h).2 _ _ _ rfl) hg h3⟩
      intro B hB
      rw [h1] at hB
      rcases hB with hB | hB
      · exact (ih hG).1 B hB
      · exact during_keeps A B o' G i e (fun h => (ih h).2 _ _ _ rfl) hg hB
    have fin : (∀ B, after S A o B → entryAt B i = some e) ∧ entryAt (arrApply A o) i = some e := by
      cases o with
      | append es =>
        cases es with
        | nil => exact common (.append []) rfl rfl rfl ⟨0, Nat.le_refl _, by simp [arrApply]⟩
        | cons x xs =>
          have hg' : entryAt (arrApply A (.append (x :: xs))) i = some e := hg
          refine ⟨?_, hg'⟩
          intro B hB
          have hB' : B = arrApply A (.append (x :: xs)) := hB
          rw [hB']; exact hg'
      | truncPrefix k => exact common _ rfl rfl rfl (Or.inr rfl)
      | truncSuffix k => exact common _ rfl rfl rfl ⟨k + 1 - A.first, Nat.le_refl _, rfl⟩
      | reset n => exact common _ rfl rfl rfl (Or.inr rfl)
    refine ⟨fin.1, ?_⟩
    intro m1 uns1 A1 heq
    cases heq
    exact fin.2
  | kill m uns A p S G o pre hh ho hres hcs hpre hcl ih =>
    refine ⟨?_, fun _ _ _ he => by cases he⟩
    intro B hB
    rcases hB with hB | hB
    · exact (ih (during_sub G o i e hg)).1 B hB
    · exact during_keeps A B o G i e (fun h => (ih h).2 _ _ _ rfl) hg hB
  | power m uns A p S G o pre d' hh ho hres hcs hpre hf ih =>
    refine ⟨?_, fun _ _ _ he => by cases he⟩
    intro B hB
    rcases hB with hB | hB
    · exact (ih (during_sub G o i e hg)).1 B hB
    · exact during_keeps A B o G i e (fun h => (ih h).2 _ _ _ rfl) hg hB

end Power

open Power

variable {K : Type}

/-- C66, proved part: raft_sync on with the policy "immediately", every fsync that is made succeeds, no
segment is closed with unsynced bytes, and no process is killed leaving unsynced bytes. Then through any
history of operations, kills and power failures at any point (also during recovery), a restart succeeds,
and the log it shows is one of those the specification allows; it holds, at its index, every entry that
append_entries acknowledged and no later truncation or reset was meant to remove. Missing: the same
without the conditions, which the code violates (`closed_segment_not_synced`, `one_entry_segment_skipped`,
`sync_failure_ignored`, `by_bytes_loses_acknowledged`, `restart_trusts_unsynced`). -/
theorem C66_power_partial (c : Codec K) (fl : SyncFlags) (maxSeg : Nat) (recover : Bool) (hi : Immediate fl)
    (p : PDisk) (S : Arr K → Prop) (G : Nat → Entry K → Prop) (h : Power.Hist c fl maxSeg recover .down p S G) :
    ∃ acts m confs B, c.init recover p.now.d = (acts, some (m, confs)) ∧ Shows c (m, applyAll p.now.d acts) B ∧
      S B ∧ ∀ i e, G i e → entryAt B i = some e := by
  obtain ⟨acts, m, confs, B, h1, h2, _, _, _, h6, _⟩ := boot_inv c fl recover p S
    (hist_inv c fl maxSeg recover hi _ _ _ _ h)
  exact ⟨acts, m, confs, B, h1, rep_shows c m _ B h6, h2,
    fun i e hg => (hist_acked c fl maxSeg recover hi _ _ _ _ h i e hg).1 B h2⟩

/-- C66, proved part: the running storage shows the array, which holds the acknowledged entries. -/
theorem C66_running_partial (c : Codec K) (fl : SyncFlags) (maxSeg : Nat) (recover : Bool) (hi : Immediate fl)
    (m : Mem) (uns : Nat → Nat) (A : Arr K) (p : PDisk) (S : Arr K → Prop) (G : Nat → Entry K → Prop)
    (h : Power.Hist c fl maxSeg recover (.up m uns A) p S G) :
    Shows c (m, p.now.d) A ∧ ∀ i e, G i e → entryAt A i = some e := by
  have hu : UpInv c m A p S := hist_inv c fl maxSeg recover hi _ _ _ _ h
  exact ⟨rep_shows c m _ A hu.1, fun i e hg => (hist_acked c fl maxSeg recover hi _ _ _ _ h i e hg).2 _ _ _ rfl⟩

theorem closesSynced_no_close (p : PDisk) (as : List PAct) (h : ∀ f l, PAct.call (.close f l) ∉ as) :
    ClosesSynced p as := by
  induction as generalizing p with
  | nil => trivial
  | cons a as ih =>
    refine ⟨?_, ih _ (fun f l hm => h f l (List.mem_cons_of_mem _ hm))⟩
    split
    · rename_i f l
      exact absurd (List.mem_cons_self ..) (h f l)
    · trivial

/-- The condition on closed segments holds for every call of append_entries with one entry. -/
theorem C66_one_entry_batches (c : Codec K) (fl : SyncFlags) (maxSeg : Nat) (recover : Bool) (hi : Immediate fl)
    (m : Mem) (uns : Nat → Nat) (A : Arr K) (p : PDisk) (S : Arr K → Prop) (G : Nat → Entry K → Prop)
    (h : Power.Hist c fl maxSeg recover (.up m uns A) p S G) (e : Entry K) (hf : e.Fits c) :
    ClosesSynced p (Power.exec c fl maxSeg m uns (.append [e])).2.2 := by
  have hu : UpInv c m A p S := hist_inv c fl maxSeg recover hi _ _ _ _ h
  obtain ⟨hrep, hcl, _⟩ := hu
  obtain ⟨base, chunks, oc, hat⟩ := rep_at hrep
  obtain ⟨o', chunks', es', h1, h2, h3, h4, h5, h6⟩ := append_shape c maxSeg m _ _ base chunks oc hat e hf
  have hloop : c.appendLoop maxSeg m [e] =
      ({ m with segs := (openSegment maxSeg m).2.1, opn := some o', last := m.last + 1 },
       (openSegment maxSeg m).2.2 ++ [.write o'.first (c.encode e)], 1) := by
    simp [Codec.appendLoop, h1]
  have hwrite : ∀ q tail, (∀ f l, PAct.call (.close f l) ∉ tail) →
      ClosesSynced q (PAct.call (.write o'.first (c.encode e)) :: tail) := by
    intro q tail ht
    apply closesSynced_no_close
    intro f l hm
    rcases List.mem_cons.mp hm with hm | hm
    · cases hm
    · exact ht f l hm
  have hae : c.appendEntries maxSeg m (m.last + 1) [e] =
      ((c.appendLoop maxSeg m [e]).1, (c.appendLoop maxSeg m [e]).2.1, some (c.appendLoop maxSeg m [e]).2.2) := by
    simp [Codec.appendEntries]
  have hex : (Power.exec c fl maxSeg m uns (.append [e])).2.2 =
      fl.allActs ((openSegment maxSeg m).2.2 ++ [.write o'.first (c.encode e)]) ++
        fl.endSync (unsAll uns ((openSegment maxSeg m).2.2 ++ [.write o'.first (c.encode e)]))
          { m with segs := (openSegment maxSeg m).2.1, opn := some o', last := m.last + 1 }
          ([e].any Entry.isConf) true := by
    unfold Power.exec Codec.appendP
    simp only [hae, hloop]
    simp
  rw [hex]
  generalize hE : fl.endSync _ _ _ _ = E
  have hEn : ∀ f l, PAct.call (.close f l) ∉ E := by
    intro f l hm
    rw [← hE] at hm
    unfold SyncFlags.endSync at hm
    dsimp only at hm
    split at hm
    · split at hm <;> simp at hm
    · cases hm
  rw [allActs_append]
  rcases h5 with ⟨_, _, _, he4⟩ | ⟨es, he1, _, _, _, he5⟩ | ⟨_, _, he3⟩
  · rw [he4]
    exact ⟨trivial, hwrite _ _ hEn⟩
  · rw [he5]
    have hopen : ∀ x ∈ p.now.d.opens, x.1 = base + total chunks → x.2.length ≤ p.now.syn (base + total chunks) := by
      intro x hx hxe
      rw [← hxe]; exact hcl.2 x hx
    rw [allActs_cons, allActs_cons]
    by_cases hsy : base + total chunks < base + total chunks + es.length - 1 ∧ fl.syncSegs = true ∧ fl.enable = true
    · simp only [SyncFlags.acts, if_pos hsy]
      refine ⟨trivial, ?_, trivial, hwrite _ _ hEn⟩
      intro x hx hxe
      show _ ≤ upd p.now.syn (base + total chunks) (p.now.d.lenOf (base + total chunks)) (base + total chunks)
      rw [upd_self, ← hxe]
      exact lenOf_open p.now.d x hx
    · simp only [SyncFlags.acts, if_neg hsy]
      exact ⟨hopen, trivial, hwrite _ _ hEn⟩
  · rw [he3]
    exact hwrite _ _ hEn

namespace Power

/-! ### Examples and counterexamples -/

/-- The started, empty log. -/
def p0 : PDisk := (Disk.durable ⟨none, [], []⟩).run (SyncFlags.default.allActs [.saveMeta 1])

def m0 : Mem := ⟨1, 0, [], none⟩

theorem boot0 (fl : SyncFlags) (maxSeg : Nat) :
    Hist demo fl maxSeg false (.up m0 (fun _ => 0) ⟨1, []⟩)
      ((Disk.durable ⟨none, [], []⟩).run (fl.allActs [.saveMeta 1])) (fun B => B = ⟨1, []⟩) (fun _ _ => False) :=
  Hist.boot _ _ _ [.saveMeta 1] m0 [] ⟨1, []⟩ Hist.start rfl
    (rep_shows demo m0 ⟨some 1, [], []⟩ ⟨1, []⟩ (empty_rep demo 1 (Nat.le_refl _) []))

/-- The worst that can happen to the present state. -/
def worst (p : PDisk) : Disk := p.now.d.cutAll p.now.syn

theorem worst_fail (p : PDisk) : p.Fail (worst p) := ⟨p.now, Or.inl rfl, p.now.syn, fun _ => Nat.le_refl _, rfl⟩

def fits1 : ∀ x ∈ [eA], x.Fits demo := fun x hx => by
  simp only [List.mem_singleton] at hx; subst hx; exact demo_fits.1

/-- A history within the conditions: entries 1 and 2, appended one by one, the second in a new segment, are
acknowledged; the power fails; both are there. -/
example : ∃ p S G, Hist demo SyncFlags.default 10 false .down p S G ∧ Immediate SyncFlags.default ∧
    G 1 eA ∧ G 2 eC ∧ p.now.d.closed.length = 1 ∧ p.now.d.opens.length = 1 := by
  have h0 := boot0 SyncFlags.default 10
  have hi : Immediate SyncFlags.default := ⟨rfl, rfl, rfl⟩
  have h1 := Hist.op _ _ _ _ _ _ (.append [eA]) h0 fits1 (fun n hn => by cases hn)
    (C66_one_entry_batches demo _ 10 false hi _ _ _ _ _ _ h0 eA demo_fits.1)
  have h2 := Hist.op _ _ _ _ _ _ (.append [eC]) h1 (fun x hx => by
      simp only [List.mem_singleton] at hx; subst hx; exact demo_fits.2.2.1) (fun n hn => by cases hn)
    (C66_one_entry_batches demo _ 10 false hi _ _ _ _ _ _ h1 eC demo_fits.2.2.1)
  have h3 := Hist.power _ _ _ _ _ _ (.append []) [] (worst _) h2 (fun x hx => by cases hx) (fun n hn => by cases hn)
    trivial (List.nil_prefix) (worst_fail _)
  exact ⟨_, _, _, h3, hi, rfl, rfl, by decide +kernel, by decide +kernel⟩

/-- The calls of append_entries on the empty log, with segments of at least 11 bytes. -/
def app (fl : SyncFlags) (ok : Bool) (es : List (Entry (Fin 3))) :=
  demo.appendP fl 10 ok m0 (fun _ => 0) 1 es

def disk0 : PDisk := Disk.durable ⟨some 1, [], []⟩

/-- Default flags. One call appends entries 1, 2 and 3; entries 1 and 2 fill segments, which are closed, and
only the last segment is synced (log.cpp:781, 552-557). The call returns 3. After a power failure the full
segment is empty and the storage does not open any more. -/
theorem closed_segment_not_synced :
    (app SyncFlags.default true [eA, eB, eC]).2.2.2 = some 3 ∧
    ∃ d', (disk0.run (app SyncFlags.default true [eA, eB, eC]).2.2.1).Fail d' ∧
      (demo.init false d').2.isNone = true ∧ (demo.init true d').2.isNone = true := by
  refine ⟨by decide +kernel, _, worst_fail _, ?_, ?_⟩ <;> decide +kernel

/-- ... the condition that excludes it does not hold. -/
example : ∃ x, x ∈ (disk0.run ((app SyncFlags.default true [eA, eB]).2.2.1.take 2)).now.d.opens ∧
    (disk0.run ((app SyncFlags.default true [eA, eB]).2.2.1.take 2)).now.syn 1 < x.2.length ∧
    (app SyncFlags.default true [eA, eB]).2.2.1[2]? = some (.call (.close 1 1)) := by
  refine ⟨(1, demo.encode eA), ?_⟩
  decide +kernel

/-- The same with raft_sync_segments, because `Segment::close` skips segments with a single entry
(`_last_index > _first_index`, log.cpp:553). -/
theorem one_entry_segment_skipped :
    (app { SyncFlags.default with syncSegs := true } true [eA, eB]).2.2.2 = some 2 ∧
    ∃ d', (disk0.run (app { SyncFlags.default with syncSegs := true } true [eA, eB]).2.2.1).Fail d' ∧
      (demo.init false d').2.isNone = true := by
  refine ⟨by decide +kernel, _, worst_fail _, ?_⟩
  decide +kernel

/-- With raft_sync_segments and two entries per segment nothing is lost. -/
example :
    let r := demo.appendP { SyncFlags.default with syncSegs := true } 30 true m0 (fun _ => 0) 1 [eA, eB, eC]
    r.2.2.2 = some 3 ∧ r.2.2.1[4]? = some (.call (.close 1 2)) ∧ r.2.2.1[3]? = some (.fsync 1) ∧
    worst (disk0.run r.2.2.1) = (disk0.run r.2.2.1).now.d := by
  decide +kernel

/-- append_entries does not look at the result of the sync (log.cpp:781): fsync fails, the call returns
success, and after a power failure the log is empty. -/
theorem sync_failure_ignored :
    (app SyncFlags.default false [eA]).2.2.2 = some 1 ∧
    ∃ d' acts m, (disk0.run (app SyncFlags.default false [eA]).2.2.1).Fail d' ∧
      demo.init false d' = (acts, some (m, [])) ∧ m.last = 0 := by
  refine ⟨by decide +kernel, _, [.rmOpen 1], ⟨1, 0, [], none⟩, worst_fail _, ?_, rfl⟩
  decide +kernel

/-- With the policy RAFT_SYNC_BY_BYTES acknowledged entries are lost silently. (A configuration entry in the
call forces the sync.) -/
theorem by_bytes_loses_acknowledged :
    (app { SyncFlags.default with byBytes := true } true [eA]).2.2.2 = some 1 ∧
    (∃ d' acts m, (disk0.run (app { SyncFlags.default with byBytes := true } true [eA]).2.2.1).Fail d' ∧
      demo.init false d' = (acts, some (m, [])) ∧ m.last = 0) ∧
    worst (disk0.run (demo.appendP { SyncFlags.default with byBytes := true } 100 true m0 (fun _ => 0) 1 [eA, eB]).2.2.1)
      = (disk0.run (demo.appendP { SyncFlags.default with byBytes := true } 100 true m0 (fun _ => 0) 1 [eA, eB]).2.2.1).now.d := by
  refine ⟨by decide +kernel, ⟨_, [.rmOpen 1], ⟨1, 0, [], none⟩, worst_fail _, ?_, rfl⟩, ?_⟩ <;>
    decide +kernel

/-- The process is killed between the write and the fsync, and restarted: recovery shows entry 1 as part of the
log, although nothing has synced it (Segment::load, log.cpp:259-380, makes no sync), so the node counts it as
stable. Then the power fails and the entry is gone. -/
theorem restart_trusts_unsynced :
    let p1 := disk0.run ((app SyncFlags.default true [eA]).2.2.1.take 2)
    (app SyncFlags.default true [eA]).2.2.1[2]? = some (.fsync 1) ∧
    (∃ m, demo.init false p1.now.d = ([], some (m, [])) ∧ m.last = 1) ∧
    ∃ d' acts m, p1.Fail d' ∧ demo.init false d' = (acts, some (m, [])) ∧ m.last = 0 := by
  refine ⟨by decide +kernel, ⟨⟨1, 1, [], some ⟨1, 1, true, [(0, 1)], 27⟩⟩, by decide +kernel, rfl⟩,
    _, [.rmOpen 1], ⟨1, 0, [], none⟩, worst_fail _, by decide +kernel, rfl⟩

end Power
end Braft.Props
