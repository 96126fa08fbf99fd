import Verif.Store.MetaPower
import Verif.Props.Meta
/-
C67: the stored term and vote and power failures (FileBasedSingleMetaStorage).
C68: the same for MixedMetaStorage.
-/
set_option linter.unusedVariables false
set_option linter.unusedSimpArgs false

namespace Braft.Props
open Braft.Meta Braft.Store

/-- Histories of one meta directory with `raft_sync_meta()`, kills and power failures. `proc` is the memory of the
running process. `reads` is what a restarted process may read, `may` is what may be read after a power failure.

* a successful set: a restart reads the new pair; a power failure may also bring back what was there before;
* a failed set changes neither;
* a process killed at any point of a set adds the new pair;
* opening settles what a restart reads, but syncs nothing;
* a power failure settles both. (That its premise can always be met is `C67_power_partial`.) -/
inductive MetaPHist (c : Pb) : Option Pair → PDir → (Pair → Prop) → (Pair → Prop) → Prop where
  | start (tmp : Option Bytes) :
      MetaPHist c none (Dir.durable ⟨none, tmp⟩) (fun v => v = .fresh) (fun v => v = .fresh)
  | opened {p r may m} (st : Bool) : MetaPHist c none p r may → c.loadMeta p.now.dir st = some m →
      MetaPHist c (some m) p (fun v => v = m) may
  | setOk {m p r may} (v : Pair) : MetaPHist c (some m) p r may → c.Fits v →
      MetaPHist c (some v) (c.savesP p v true) (fun x => x = v) (fun x => r x ∨ x = v)
  | setFails {m p p' r may} (v : Pair) : MetaPHist c (some m) p r may → PCrash p' p (c.failActs v) →
      MetaPHist c (some v) p' r may
  | killedInSet {m p p' r may} (v : Pair) : MetaPHist c (some m) p r may → c.Fits v →
      PCrash p' p (saveActs (c.bytes v) true) →
      MetaPHist c none p' (fun x => r x ∨ x = v) (fun x => may x ∨ x = v)
  | killed {m p r may} : MetaPHist c (some m) p r may → MetaPHist c none p r may
  | power {proc p r may} (d : Dir) (v : Pair) (st : Bool) : MetaPHist c proc p r may → p.Fail d →
      c.loadMeta d st = some v → MetaPHist c none d.durable (fun x => x = v) (fun x => x = v)

theorem fail_holds {c : Pb} {p : PDir} {r may : Pair → Prop} (h : c.Inv p r may) {d : Dir} (hf : p.Fail d) :
    ∃ v, may v ∧ c.Holds d.main v := by
  obtain ⟨s, hs, hm, _⟩ := hf
  rcases hs with hs | hs
  · obtain ⟨v, _, h2, h3⟩ := h.now
    rw [hs] at hm
    exact ⟨v, h2, lost_main c _ v h3 d hm⟩
  · obtain ⟨v, h2, h3⟩ := h.past s hs
    exact ⟨v, h2, lost_main c _ v h3 d hm⟩

theorem durable_safe {c : Pb} {d : Dir} {v : Pair} (h : c.Holds d.main v) : c.Safe d.durable.now v := by
  refine ⟨?_, ?_⟩
  · have := durable_dir d
    have h2 : d.durable.now.dir.main = d.main := by rw [this]
    rw [show d.durable.now.main.map (·.data) = d.durable.now.dir.main from rfl, h2]; exact h
  · intro f hf
    cases hd : d.main with
    | none => simp [Dir.durable, hd] at hf
    | some b => simp [Dir.durable, hd] at hf; rw [← hf]; exact Nat.le_refl _

theorem metaPHist_inv {c : Pb} {proc p r may} (h : MetaPHist c proc p r may) : c.Inv p r may := by
  induction h with
  | start tmp =>
    exact ⟨⟨_, rfl, rfl, durable_safe (Or.inl ⟨rfl, rfl⟩)⟩, fun s hs => by cases hs⟩
  | @opened p r may m st _ hl ih =>
    obtain ⟨⟨v, h1, h2, h3⟩, h4⟩ := ih
    have := loadMeta_holds c p.now.dir v st h3.1
    rw [this] at hl
    exact ⟨⟨v, Option.some.inj hl, h2, h3⟩, h4⟩
  | setOk v _ hf ih => exact inv_save ih v hf
  | setFails v _ hc ih => exact inv_crash _ (failActs_no_rename c v) ih hc
  | @killedInSet m p p' r may v _ hf hc ih =>
    rw [saveActs_eq] at hc
    rcases pcrash_append _ _ _ _ hc with hc | hc
    · exact inv_weaken (inv_crash _ (failActs_no_rename c v) ih hc) (fun _ => Or.inl) (fun _ => Or.inl)
    · have hrun : c.Inv (p.run (c.failActs v)) r may := by
        have : PCrash (p.run (c.failActs v)) p (c.failActs v) := by
          simp [PCrash, PDir.run, Pb.failActs]
        exact inv_crash _ (failActs_no_rename c v) ih this
      rcases hc with hc | hc | hc
      · rw [hc]; exact inv_weaken hrun (fun _ => Or.inl) (fun _ => Or.inl)
      · exact hc.elim
      · have h2 : p' = c.savesP p v true := by
          rw [show p' = (p.run (c.failActs v)).step .rename from hc]
          unfold Pb.savesP PDir.run
          rw [saveActs_eq, List.foldl_append]; rfl
        rw [h2]
        have h3 := inv_save ih v hf
        refine ⟨?_, ?_⟩
        · obtain ⟨x, hx1, hx2, hx3⟩ := h3.now
          exact ⟨x, Or.inr hx1, Or.inr hx1, hx3⟩
        · intro s hs
          rw [run_save] at hs
          rw [List.mem_singleton.mp hs]
          obtain ⟨w, hw1, hw2, hw3⟩ := ih.now
          exact ⟨w, Or.inl hw2, hw3⟩
  | killed _ ih => exact ih
  | power d v st _ hf hl ih =>
    obtain ⟨w, h1, h2⟩ := fail_holds ih hf
    rw [loadMeta_holds c d w st h2] at hl
    have hw : w = v := Option.some.inj hl
    rw [hw] at h2
    exact ⟨⟨v, rfl, rfl, durable_safe h2⟩, fun s hs => by cases hs⟩

/-- C67, proved part: after every history of sets, failures, kills and power failures, whatever a power failure at
this point leaves, opening the directory succeeds and returns one of the pairs of `may`: never a torn or mixed one,
and never one from before the set before the last. Missing: that it is the pair of the last set that returned OK
(`vote_forgotten`). -/
theorem C67_power_partial {c : Pb} {proc p r may} (h : MetaPHist c proc p r may) (d : Dir) (hf : p.Fail d) (st : Bool) :
    ∃ v, may v ∧ c.loadMeta d st = some v := by
  obtain ⟨v, h1, h2⟩ := fail_holds (metaPHist_inv h) hf
  exact ⟨v, h1, loadMeta_holds c d v st h2⟩

/-- C67: a kill alone never loses the last pair, power failures before it or not. -/
theorem C67_kill {c : Pb} {proc p r may} (h : MetaPHist c proc p r may) (st : Bool) :
    ∃ v, r v ∧ c.loadMeta p.now.dir st = some v := by
  obtain ⟨v, h1, _, h3⟩ := (metaPHist_inv h).now
  exact ⟨v, h1, loadMeta_holds c _ v st h3.1⟩

/-- C67: after two successful sets a power failure shows one of the two. -/
theorem C67_last_two {c : Pb} {m p r may} (h : MetaPHist c (some m) p r may) (v w : Pair) (hv : c.Fits v) (hw : c.Fits w)
    (d : Dir) (hf : (c.savesP (c.savesP p v true) w true).Fail d) (st : Bool) :
    c.loadMeta d st = some v ∨ c.loadMeta d st = some w := by
  obtain ⟨x, hx, hl⟩ := C67_power_partial (.setOk w (.setOk v h hv) hw) d hf st
  rcases hx with hx | hx
  · exact Or.inl (by rw [hl, hx])
  · exact Or.inr (by rw [hl, hx])

/-- C67: a pair stored twice survives. -/
theorem C67_twice {c : Pb} {m p r may} (h : MetaPHist c (some m) p r may) (v : Pair) (hv : c.Fits v)
    (d : Dir) (hf : (c.savesP (c.savesP p v true) v true).Fail d) (st : Bool) : c.loadMeta d st = some v := by
  rcases C67_last_two h v v hv hv d hf st with h | h <;> exact h

/-- Violation: set_term_and_votedfor(3, A) returned OK, so a vote for A in term 3 was granted. The power fails, the
rename is lost (no directory is synced and nothing else commits it), and the restarted node reads term 1 and no vote:
it may vote for B in term 3. -/
theorem vote_forgotten :
    ∃ p r may, MetaPHist demoPb (some ⟨3, vB⟩) p r may ∧
      ∃ p1 d, p1 = demoPb.savesP (Dir.durable ⟨none, none⟩) ⟨3, vA⟩ true ∧ p1.Fail d ∧
        demoPb.loadMeta d false = some .fresh ∧ p = demoPb.savesP d.durable ⟨3, vB⟩ true := by
  let p1 := demoPb.savesP (Dir.durable ⟨none, none⟩) ⟨3, vA⟩ true
  let d : Dir := ⟨none, some (be 4 ((demoPb.bytes ⟨3, vA⟩).length % 4294967296) ++ demoPb.bytes ⟨3, vA⟩)⟩
  let f : Bytes := be 4 ((demoPb.bytes ⟨3, vA⟩).length % 4294967296) ++ demoPb.bytes ⟨3, vA⟩
  have hf : p1.Fail d := by
    refine ⟨⟨none, some ⟨f, f.length⟩⟩, Or.inr ?_, rfl, f, ⟨f.length, Nat.le_refl _, (List.take_of_length_le (Nat.le_refl _)).symm⟩, rfl⟩
    show _ ∈ (demoPb.savesP _ _ true).past
    rw [run_save]
    exact List.mem_singleton.mpr rfl
  have hB : demoPb.Fits ⟨3, vB⟩ := ⟨demo_pair_fits.2.1, by decide +kernel⟩
  refine ⟨_, _, _, .setOk ⟨3, vB⟩ (.opened false (.power d .fresh false
    (.setOk ⟨3, vA⟩ (.opened false (.start none) rfl) demo_pair_fits.1) hf rfl) rfl) hB, p1, d, rfl, hf, rfl, rfl⟩

/-- Without `raft_sync_meta()` the renamed file may be empty: the node does not start, or, with a stale errno, starts
with term 1 although an earlier pair was durable. -/
theorem unsynced_save_empties :
    ∃ d, (demoPb.savesP (Dir.durable (saveOk ⟨none, none⟩ (demoPb.bytes ⟨3, vA⟩) true)) ⟨4, vB⟩ false).Fail d ∧
      demoPb.loadMeta d false = none ∧ demoPb.loadMeta d true = some .fresh := by
  refine ⟨⟨some [], none⟩, ⟨_, Or.inl rfl, ⟨[], ⟨0, ?_, ?_⟩, rfl⟩, rfl⟩, ?_, ?_⟩ <;> decide +kernel

/-- A history: (3, A) and (4, B) stored, killed, restarted: (4, B) is read; but a power failure may still show
(3, A), though not the initial pair. -/
example : ∃ p may, MetaPHist demoPb (some ⟨4, vB⟩) p (fun v => v = ⟨4, vB⟩) may ∧ may ⟨3, vA⟩ ∧ may ⟨4, vB⟩ ∧ ¬ may .fresh := by
  refine ⟨_, _, .opened false (.killed (.setOk ⟨4, vB⟩ (.setOk ⟨3, vA⟩ (.opened false (.start none) rfl)
    demo_pair_fits.1) demo_pair_fits.2)) ?_, Or.inl rfl, Or.inr rfl, ?_⟩
  · decide +kernel
  · intro h
    rcases h with h | h
    · exact absurd h (by decide)
    · exact absurd h (by decide)

/-! ### C68: MixedMetaStorage -/

/-- Histories of a mixed storage with power failures; see `MixedHist`. `bs` is what the single storage may hold after
a power failure (more than C67 allows: anything stored since the last one), `bm` what leveldb may hold: only the present
record once a synced write or DB::Open succeeded, also the new one while a write has failed or was killed. -/
inductive MixedPHist (s0 : Stores) : Option Pair → Stores → (Pair → Prop) → (Option Pair → Prop) → Pair → Prop where
  | start (acked : Pair) : UpTo acked s0.single ∨ UpTo acked (Stores.mergedPair s0) →
      MixedPHist s0 none s0 (fun x => x = s0.single) (fun y => y = s0.merged) acked
  | boot {s bs bm acked} (e : Env) (p : Pair) : MixedPHist s0 none s bs bm acked → (mixedGet s e).2 = .ok p →
      MixedPHist s0 (some p) (mixedGet s e).1 (fun x => bs x ∨ x = (mixedGet s e).1.single)
        (fun y => y = (mixedGet s e).1.merged) p
  | bootFails {s bs bm acked} (e : Env) : MixedPHist s0 none s bs bm acked → (∀ p, (mixedGet s e).2 ≠ .ok p) →
      MixedPHist s0 none (mixedGet s e).1 (fun x => bs x ∨ x = (mixedGet s e).1.single)
        (fun y => y = s.merged ∨ (s.merged = none ∧ y = some .fresh) ∨ y = (mixedGet s e).1.merged) acked
  | setOk {cur s bs bm acked} (p : Pair) (singleOk : Bool) (w : W) : MixedPHist s0 (some cur) s bs bm acked →
      UpTo cur p → (mixedSet s p singleOk w).2 = true →
      MixedPHist s0 (some p) (mixedSet s p singleOk w).1 (fun x => bs x ∨ x = p) (fun y => y = some p) p
  | setFails {cur s bs bm acked} (p : Pair) (singleOk : Bool) (w : W) : MixedPHist s0 (some cur) s bs bm acked →
      UpTo cur p → (mixedSet s p singleOk w).2 = false →
      MixedPHist s0 (some p) (mixedSet s p singleOk w).1 (fun x => bs x ∨ (singleOk = true ∧ x = p))
        (fun y => bm y ∨ (singleOk = true ∧ y = some p)) acked
  | killedInSet {cur s bs bm acked} (p : Pair) (singleDone mergedDone : Bool) :
      MixedPHist s0 (some cur) s bs bm acked → UpTo cur p →
      MixedPHist s0 none (if singleDone then ⟨p, if mergedDone then some p else s.merged⟩ else s)
        (fun x => bs x ∨ (singleDone = true ∧ x = p)) (fun y => bm y ∨ (singleDone = true ∧ y = some p)) acked
  | killed {cur s bs bm acked} : MixedPHist s0 (some cur) s bs bm acked → MixedPHist s0 none s bs bm acked
  | power {proc s bs bm acked} (x : Pair) (y : Option Pair) : MixedPHist s0 proc s bs bm acked → bs x → bm y →
      MixedPHist s0 none ⟨x, y⟩ (fun v => v = x) (fun v => v = y) acked

/-- A failed get does not touch the single storage. -/
theorem mixedGet_fails_single (s : Stores) (e : Env) (h : ∀ p, (mixedGet s e).2 ≠ .ok p) :
    (mixedGet s e).1.single = s.single := by
  unfold mixedGet at h ⊢
  generalize mergedGet s.merged e.readOk e.firstW = r at h ⊢
  obtain ⟨m, r⟩ := r
  cases r with
  | none => rfl
  | some q =>
    dsimp only at h ⊢
    split
    · rfl
    · rename_i h1
      rw [if_neg h1] at h
      split
      · rfl
      · rename_i h2
        rw [if_neg h2] at h
        split
        · rfl
        · rename_i h3
          rw [if_neg h3] at h
          cases hs : e.singleOk with
          | false => rfl
          | true => rw [hs] at h; exact absurd rfl (h q)

/-- ... and leaves leveldb with its record, the initial one, or the single storage's. -/
theorem mixedGet_merged (s : Stores) (e : Env) :
    (mixedGet s e).1.merged = s.merged ∨ (s.merged = none ∧ (mixedGet s e).1.merged = some .fresh) ∨
      (mixedGet s e).1.merged = some s.single := by
  have hm : (mergedGet s.merged e.readOk e.firstW).1 = s.merged ∨
      (s.merged = none ∧ (mergedGet s.merged e.readOk e.firstW).1 = some .fresh) := by
    unfold mergedGet
    cases e.readOk <;> cases s.merged <;> cases e.firstW <;> simp [W.put]
  unfold mixedGet
  generalize mergedGet s.merged e.readOk e.firstW = r at hm ⊢
  obtain ⟨m, r⟩ := r
  have hm' : m = s.merged ∨ (s.merged = none ∧ m = some .fresh) := hm
  cases r with
  | none => exact hm'.elim Or.inl (fun h => Or.inr (Or.inl h))
  | some q =>
    dsimp only
    split
    · exact hm'.elim Or.inl (fun h => Or.inr (Or.inl h))
    · split
      · exact hm'.elim Or.inl (fun h => Or.inr (Or.inl h))
      · split
        · cases e.mergedW with
          | ok => exact Or.inr (Or.inr rfl)
          | lost => exact hm'.elim Or.inl (fun h => Or.inr (Or.inl h))
          | kept => exact Or.inr (Or.inr rfl)
        · exact hm'.elim Or.inl (fun h => Or.inr (Or.inl h))

/-- The pair an absent record stands for. -/
def pairOf (y : Option Pair) : Pair := y.getD .fresh

/-- Invariant of `MixedPHist`. -/
structure MixedPInv (proc : Option Pair) (s : Stores) (bs : Pair → Prop) (bm : Option Pair → Prop) (acked : Pair) : Prop where
  nowS : bs s.single
  nowM : bm s.merged
  older : ∀ x, bs x → UpTo x s.single
  has : ∀ x y, bs x → bm y → UpTo acked x ∨ UpTo acked (pairOf y)
  up : ∀ c, proc = some c → UpTo acked c ∧ UpTo s.single c ∧
    ∀ y, bm y → UpTo (pairOf y) c ∧ UpTo acked (pairOf y)

theorem mixedPHist_inv {s0 : Stores} {proc s bs bm acked} (h : MixedPHist s0 proc s bs bm acked) :
    MixedPInv proc s bs bm acked := by
  induction h with
  | start acked h =>
    refine ⟨rfl, rfl, ?_, ?_, fun c hc => by cases hc⟩
    · intro x hx; rw [hx]; exact upTo_refl _
    · intro x y hx hy; rw [hx, hy]; exact h
  | @boot s bs bm acked e p _ hp ih =>
    obtain ⟨_, _, _, h3, q, h4, h5, h6⟩ := (C25_get s e).1 p hp
    have hm := mixedGet_mono s e
    have hq : UpTo p q := Or.inr ⟨h5.symm, Or.inl h6⟩
    have hq' : UpTo q p := Or.inr ⟨h5, Or.inl (PeerId.eqv_symm h6)⟩
    refine ⟨Or.inr rfl, rfl, ?_, ?_, ?_⟩
    · intro x hx
      rcases hx with hx | hx
      · exact upTo_trans (ih.older x hx) hm.1
      · rw [hx]; exact upTo_refl _
    · intro x y _ hy
      rw [hy, h4]; exact Or.inr hq
    · intro c hc
      cases hc
      refine ⟨upTo_refl _, by rw [h3]; exact upTo_refl _, fun y hy => ?_⟩
      rw [hy, h4]; exact ⟨hq', hq⟩
  | @bootFails s bs bm acked e _ hn ih =>
    have hs := mixedGet_fails_single s e hn
    have hm := mixedGet_mono s e
    have hold : ∀ x, (bs x ∨ x = (mixedGet s e).1.single) → bs x := by
      intro x hx
      rcases hx with hx | hx
      · exact hx
      · rw [hx, hs]; exact ih.nowS
    refine ⟨Or.inr rfl, Or.inr (Or.inr rfl), ?_, ?_, fun c hc => by cases hc⟩
    · intro x hx
      rw [hs]; exact ih.older x (hold x hx)
    · intro x y hx hy
      have h0 := ih.has x _ (hold x hx) ih.nowM
      rcases hy with hy | ⟨hy, hy'⟩ | hy
      · rw [hy]; exact h0
      · rw [hy] at h0; rw [hy']; exact h0
      · rw [hy]
        exact h0.imp id (fun h => upTo_trans h hm.2)
  | @setOk cur s bs bm acked p so w _ hu hr ih =>
    unfold mixedSet at hr ⊢
    cases so with
    | false => simp at hr
    | true =>
      have hw : w = .ok := by simpa using hr
      subst hw
      obtain ⟨_, h2, _⟩ := ih.up _ rfl
      refine ⟨Or.inr rfl, rfl, ?_, ?_, ?_⟩
      · intro x hx
        rcases hx with hx | hx
        · exact upTo_trans (upTo_trans (ih.older x hx) h2) hu
        · rw [hx]; exact upTo_refl _
      · intro x y _ hy
        rw [hy]; exact Or.inr (upTo_refl _)
      · intro c hc
        cases hc
        exact ⟨upTo_refl _, upTo_refl _, fun y hy => by rw [hy]; exact ⟨upTo_refl _, upTo_refl _⟩⟩
  | @setFails cur s bs bm acked p so w _ hu hr ih =>
    obtain ⟨h1, h2, h3⟩ := ih.up _ rfl
    have hp := upTo_trans h1 hu
    have hbm : ∀ y, (bm y ∨ (so = true ∧ y = some p)) → UpTo (pairOf y) p ∧ UpTo acked (pairOf y) := by
      intro y hy
      rcases hy with hy | ⟨_, hy⟩
      · exact ⟨upTo_trans (h3 y hy).1 hu, (h3 y hy).2⟩
      · rw [hy]; exact ⟨upTo_refl _, hp⟩
    unfold mixedSet
    cases so with
    | false =>
      refine ⟨Or.inl ih.nowS, Or.inl ih.nowM, ?_, fun x y _ hy => Or.inr (hbm y hy).2, ?_⟩
      · intro x hx
        rcases hx with hx | ⟨hx, _⟩
        · exact ih.older x hx
        · cases hx
      · intro c hc
        cases hc
        exact ⟨hp, upTo_trans h2 hu, hbm⟩
    | true =>
      refine ⟨Or.inr ⟨rfl, rfl⟩, ?_, ?_, fun x y _ hy => Or.inr (hbm y hy).2, ?_⟩
      · cases w with
        | ok => exact Or.inr ⟨rfl, rfl⟩
        | lost => exact Or.inl ih.nowM
        | kept => exact Or.inr ⟨rfl, rfl⟩
      · intro x hx
        rcases hx with hx | ⟨_, hx⟩
        · exact upTo_trans (upTo_trans (ih.older x hx) h2) hu
        · rw [hx]; exact upTo_refl _
      · intro c hc
        cases hc
        exact ⟨hp, upTo_refl _, hbm⟩
  | @killedInSet cur s bs bm acked p sd md _ hu ih =>
    obtain ⟨h1, h2, h3⟩ := ih.up _ rfl
    have hp := upTo_trans h1 hu
    have hbm : ∀ y, (bm y ∨ (sd = true ∧ y = some p)) → UpTo acked (pairOf y) := by
      intro y hy
      rcases hy with hy | ⟨_, hy⟩
      · exact (h3 y hy).2
      · rw [hy]; exact hp
    cases sd with
    | false =>
      refine ⟨Or.inl ih.nowS, Or.inl ih.nowM, ?_, fun x y _ hy => Or.inr (hbm y hy), fun c hc => by cases hc⟩
      intro x hx
      rcases hx with hx | ⟨hx, _⟩
      · exact ih.older x hx
      · cases hx
    | true =>
      refine ⟨Or.inr ⟨rfl, rfl⟩, ?_, ?_, fun x y _ hy => Or.inr (hbm y hy), fun c hc => by cases hc⟩
      · cases md with
        | true => exact Or.inr ⟨rfl, rfl⟩
        | false => exact Or.inl ih.nowM
      · intro x hx
        rcases hx with hx | ⟨_, hx⟩
        · exact upTo_trans (upTo_trans (ih.older x hx) h2) hu
        · rw [hx]; exact upTo_refl _
  | killed _ ih => exact ⟨ih.nowS, ih.nowM, ih.older, ih.has, fun c hc => by cases hc⟩
  | @power proc s bs bm acked x y _ hx hy ih =>
    refine ⟨rfl, rfl, ?_, ?_, fun c hc => by cases hc⟩
    · intro v hv; rw [hv]; exact upTo_refl _
    · intro v w hv hw
      rw [hv, hw]; exact ih.has x y hx hy

/-- C68: whatever happened - failed writes, kills at any point, power failures - get_term_and_votedfor at a restart
never returns anything older than the newest acknowledged pair. -/
theorem C68_never_lost {s0 s : Stores} {bs bm} {acked : Pair} (h : MixedPHist s0 none s bs bm acked) (e : Env) (p : Pair)
    (hp : (mixedGet s e).2 = .ok p) : UpTo acked p := by
  have hi := mixedPHist_inv h
  obtain ⟨_, h1, h2, _⟩ := (C25_get s e).1 p hp
  rcases hi.has _ _ hi.nowS hi.nowM with h | h
  · exact upTo_trans h h1
  · exact upTo_trans h h2

/-- C68: the same at once: a power failure at any point of any history, then a restart. -/
theorem C68_power {s0 s : Stores} {proc bs bm} {acked : Pair} (h : MixedPHist s0 proc s bs bm acked) (x : Pair)
    (y : Option Pair) (hx : bs x) (hy : bm y) (e : Env) (p : Pair) (hp : (mixedGet ⟨x, y⟩ e).2 = .ok p) : UpTo acked p :=
  C68_never_lost (.power x y h hx hy) e p hp

/-- C68: if the two storages did not disagree when the mixed storage was first used, get_term_and_votedfor never
refuses because of a conflict, power failures included. -/
theorem C68_no_false_conflict {s0 s : Stores} {bs bm} {acked : Pair}
    (h0 : UpTo s0.single (Stores.mergedPair s0) ∨ UpTo (Stores.mergedPair s0) s0.single)
    (h : MixedPHist s0 none s bs bm acked) (e : Env) : (mixedGet s e).2 ≠ .conflict := by
  have inv : ∀ {proc s bs bm acked}, MixedPHist s0 proc s bs bm acked →
      ∀ x y, bs x → bm y → UpTo x (pairOf y) ∨ UpTo (pairOf y) x := by
    intro proc s bs bm acked h
    induction h with
    | start acked h => intro x y hx hy; rw [hx, hy]; exact h0
    | @boot s bs bm acked e p h' hp ih =>
      intro x y hx hy
      have hi := mixedPHist_inv (.boot e p h' hp)
      obtain ⟨_, _, _, h3, q, h4, h5, h6⟩ := (C25_get s e).1 p hp
      have := hi.older x hx
      rw [hy, h4]
      rw [h3] at this
      exact Or.inl (upTo_trans this (Or.inr ⟨h5.symm, Or.inl h6⟩))
    | @bootFails s bs bm acked e h' hn ih =>
      intro x y hx hy
      have hi := mixedPHist_inv h'
      have hs := mixedGet_fails_single s e hn
      have hx' : bs x := by
        rcases hx with hx | hx
        · exact hx
        · rw [hx, hs]; exact hi.nowS
      have h1 := ih x _ hx' hi.nowM
      have hfin : ∀ y, (y = s.merged ∨ (s.merged = none ∧ y = some .fresh)) → UpTo x (pairOf y) ∨ UpTo (pairOf y) x := by
        intro y hy
        rcases hy with hy | ⟨hy, hy'⟩
        · rw [hy]; exact h1
        · rw [hy] at h1; rw [hy']; exact h1
      rcases hy with hy | hy | hy
      · exact hfin y (Or.inl hy)
      · exact hfin y (Or.inr hy)
      · rcases mixedGet_merged s e with h | h | h
        · exact hfin y (Or.inl (by rw [hy, h]))
        · exact hfin y (Or.inr ⟨h.1, by rw [hy, h.2]⟩)
        · rw [hy, h]; exact Or.inl (hi.older x hx')
    | @setOk cur s bs bm acked p so w h' hu hr ih =>
      intro x y hx hy
      have hi := mixedPHist_inv (.setOk p so w h' hu hr)
      obtain ⟨_, h2, _⟩ := hi.up _ rfl
      rw [hy]; exact Or.inl (upTo_trans (hi.older x hx) h2)
    | @setFails cur s bs bm acked p so w h' hu hr ih =>
      intro x y hx hy
      have hi := mixedPHist_inv h'
      obtain ⟨_, h2, h3⟩ := hi.up _ rfl
      rcases hx with hx | ⟨_, hx⟩
      · rcases hy with hy | ⟨_, hy⟩
        · exact ih x y hx hy
        · rw [hy]; exact Or.inl (upTo_trans (upTo_trans (hi.older x hx) h2) hu)
      · rw [hx]
        rcases hy with hy | ⟨_, hy⟩
        · exact Or.inr (upTo_trans (h3 y hy).1 hu)
        · rw [hy]; exact Or.inl (upTo_refl _)
    | @killedInSet cur s bs bm acked p sd md h' hu ih =>
      intro x y hx hy
      have hi := mixedPHist_inv h'
      obtain ⟨_, h2, h3⟩ := hi.up _ rfl
      rcases hx with hx | ⟨_, hx⟩
      · rcases hy with hy | ⟨_, hy⟩
        · exact ih x y hx hy
        · rw [hy]; exact Or.inl (upTo_trans (upTo_trans (hi.older x hx) h2) hu)
      · rw [hx]
        rcases hy with hy | ⟨_, hy⟩
        · exact Or.inr (upTo_trans (h3 y hy).1 hu)
        · rw [hy]; exact Or.inl (upTo_refl _)
    | killed _ ih => exact ih
    | @power proc s bs bm acked x y _ hx hy ih =>
      intro v w hv hw
      rw [hv, hw]; exact ih x y hx hy
  intro hc
  have hi := mixedPHist_inv h
  exact upTo_no_conflict (inv h _ _ hi.nowS hi.nowM) ((C25_get s e).2.1 hc).1

/-- A history: (6, A) stored in both; the power fails and the file has (5, no vote) again; get returns (6, A) and
repairs the file. -/
example : MixedPHist ⟨⟨5, {}⟩, none⟩ none ⟨⟨5, {}⟩, some ⟨6, vA⟩⟩ (fun x => x = ⟨5, {}⟩) (fun y => y = some ⟨6, vA⟩) ⟨6, vA⟩ ∧
    mixedGet ⟨⟨5, {}⟩, some ⟨6, vA⟩⟩ ⟨true, .ok, .ok, true⟩ = (⟨⟨6, vA⟩, some ⟨6, vA⟩⟩, .ok ⟨6, vA⟩) :=
  ⟨.power ⟨5, {}⟩ (some ⟨6, vA⟩)
    (.setOk (s := ⟨⟨5, {}⟩, some ⟨5, {}⟩⟩) ⟨6, vA⟩ true .ok
      (.boot ⟨true, .ok, .ok, true⟩ ⟨5, {}⟩ (.start ⟨5, {}⟩ (Or.inl (upTo_refl _))) rfl) (Or.inl (by decide)) rfl)
    (Or.inl (Or.inl rfl)) rfl, by decide⟩

end Braft.Props
