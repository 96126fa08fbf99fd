import Verif.Store.Meta
/-
C24: term and vote are persisted atomically (single meta storage).
C25: the mixed meta storage never loses the newest vote.
-/
set_option linter.unusedVariables false
set_option linter.unusedSimpArgs false

namespace Braft.Props
open Braft.Meta Braft.Store

/-! ## An encoding for the examples -/

def chars4 : Bytes → List Char
  | a :: b :: c :: d :: r => Char.ofNat (unbe [a, b, c, d]) :: chars4 r
  | _ => []

theorem chars4_be (v : List Char) : chars4 (v.flatMap (fun c => be 4 c.toNat)) = v := by
  induction v with
  | nil => rfl
  | cons c v ih =>
    rw [List.flatMap_cons]
    have hl : (be 4 c.toNat).length = 4 := be_length ..
    have hu : unbe (be 4 c.toNat) = c.toNat := by
      rw [unbe_be, show (256 : Nat) ^ 4 = 4294967296 by decide]
      exact Nat.mod_eq_of_lt c.val.toNat_lt
    generalize be 4 c.toNat = b at hl hu
    match b, hl with
    | [x, y, z, w], _ =>
      show Char.ofNat (unbe [x, y, z, w]) :: chars4 (v.flatMap (fun c => be 4 c.toNat)) = _
      rw [ih, hu]
      simp

/-- Sign, absolute value in unary, then the text with four bytes for each character. -/
def demoPb : Pb where
  ser t v := (if t < 0 then 1 else 0) :: (List.replicate t.natAbs 1 ++ 0 :: v.flatMap (fun c => be 4 c.toNat))
  parse b :=
    match b with
    | [] => (0, [])
    | s :: r =>
      let n : Int := (r.takeWhile (· == 1)).length
      (if s = 1 then -n else n, chars4 ((r.dropWhile (· == 1)).drop 1))
  parse_ser t v := by
    dsimp only
    rw [Text.takeWhile_append_all (by simp), Text.dropWhile_append_all (by simp)]
    · simp only [List.length_replicate, List.drop_one, List.tail_cons, chars4_be]
      by_cases h : t < 0
      · rw [if_pos h, if_pos rfl]; congr 1; omega
      · rw [if_neg h, if_neg (by decide)]; congr 1; omega
    all_goals simp

def vA : PeerId := ⟨2130706433, 8100, 0, .replica⟩
def vB : PeerId := ⟨2130706433, 8101, 0, .replica⟩

theorem demo_pair_fits : demoPb.Fits ⟨3, vA⟩ ∧ demoPb.Fits ⟨4, vB⟩ := by
  unfold Pb.Fits Text.Fits
  decide +kernel

/-! ## C24 -/

/-- Histories of one meta directory. `proc` is the memory of the running process, `none` when there is
none. `may` is the specification: the pairs a reopening may return.

* a successful set leaves only the new pair possible,
* a failed set changes nothing durable,
* a process killed at any point of a set adds the new pair,
* a process killed at any other point changes nothing,
* opening settles on what was read. -/
inductive MetaHist (c : Pb) : Option Pair → Dir → (Pair → Prop) → Prop where
  | start (tmp : Option Bytes) : MetaHist c none ⟨none, tmp⟩ (fun v => v = .fresh)
  | opened {d may m} (st : Bool) : MetaHist c none d may → c.loadMeta d st = some m →
      MetaHist c (some m) d (fun v => v = m)
  | setOk {m d may} (p : Pair) (sync : Bool) : MetaHist c (some m) d may → c.Fits p →
      MetaHist c (some p) (c.setOk d p sync).2 (fun v => v = p)
  | setFails {m d d' may} (p : Pair) (sync : Bool) : MetaHist c (some m) d may →
      SaveFails d' d (c.bytes p) sync → MetaHist c (some p) d' may
  | killedInSet {m d d' may} (p : Pair) (sync : Bool) : MetaHist c (some m) d may → c.Fits p →
      Crash d' d (saveActs (c.bytes p) sync) → MetaHist c none d' (fun v => may v ∨ v = p)
  | killed {m d may} : MetaHist c (some m) d may → MetaHist c none d may

theorem metaHist_inv {c : Pb} {proc d may} (h : MetaHist c proc d may) :
    ∃ v, may v ∧ c.Holds d.main v := by
  induction h with
  | start => exact ⟨_, rfl, Or.inl ⟨rfl, rfl⟩⟩
  | opened st _ hl ih =>
    obtain ⟨v, _, hv⟩ := ih
    rw [loadMeta_holds c _ v st hv] at hl
    exact ⟨v, Option.some.inj hl, hv⟩
  | setOk p sync _ hf _ => exact ⟨p, rfl, Or.inr ⟨saveOk_main .., hf⟩⟩
  | setFails p sync _ hs ih =>
    obtain ⟨v, hm, hv⟩ := ih
    exact ⟨v, hm, by rw [saveFails_main hs]; exact hv⟩
  | killedInSet p sync _ hf hc ih =>
    obtain ⟨v, hm, hv⟩ := ih
    rcases crash_save hc with h | h
    · exact ⟨v, Or.inl hm, by rw [h]; exact hv⟩
    · exact ⟨p, Or.inr rfl, Or.inr ⟨h, hf⟩⟩
  | killed _ ih => exact ih

/-- C24: after every history, opening the meta directory succeeds and returns one of the pairs the
specification allows: the last successfully stored (or last read) pair, or the complete pair of a set
the process was killed in since; never a mixture. Whatever errno says. -/
theorem C24_atomic {c : Pb} {proc d may} (h : MetaHist c proc d may) (st : Bool) :
    ∃ v, may v ∧ c.loadMeta d st = some v := by
  obtain ⟨v, hm, hv⟩ := metaHist_inv h
  exact ⟨v, hm, loadMeta_holds c d v st hv⟩

/-- C24: once set_term_and_votedfor returned OK, a process killed afterwards and restarted reads
exactly that pair. -/
theorem C24_durable {c : Pb} {m d may} (h : MetaHist c (some m) d may) (p : Pair) (hf : c.Fits p) (sync st : Bool) :
    c.loadMeta (c.setOk d p sync).2 st = some p := by
  obtain ⟨v, hm, hv⟩ := C24_atomic (.setOk p sync h hf) st
  rw [hv, hm]

/-- A history: (3, A) stored, then the process is killed while storing (4, B), half of the message
being in the temporary file. -/
example : ∃ d may, MetaHist demoPb none d may ∧ may ⟨3, vA⟩ ∧ may ⟨4, vB⟩ ∧ ¬ may ⟨4, vA⟩ ∧
    d.tmp.isSome ∧ demoPb.loadMeta d true = some ⟨3, vA⟩ := by
  let p : Pair := ⟨4, vB⟩
  let d0 : Dir := (demoPb.setOk ⟨none, none⟩ ⟨3, vA⟩ true).2
  let d1 : Dir := Act.apply (Act.apply (Act.apply d0 .openTmp) (.write (be 4 ((demoPb.bytes p).length % 4294967296))))
    (.write ((demoPb.bytes p).take 7))
  refine ⟨d1, _, .killedInSet (m := ⟨3, vA⟩) (d := d0) (may := fun v => v = ⟨3, vA⟩) p true
    (.setOk ⟨3, vA⟩ true (.opened true (.start none) rfl) demo_pair_fits.1) demo_pair_fits.2 ?_,
    Or.inl rfl, Or.inr rfl, ?_, ?_, ?_⟩
  · refine Or.inr (Or.inr (Or.inr (Or.inr (Or.inr (Or.inl ?_)))))
    exact ⟨(demoPb.bytes p).take 7, List.take_prefix .., rfl⟩
  · decide
  · decide +kernel
  · decide +kernel

/-- A failed set leaves memory and disk different: get (which reads memory) then reports a pair that
a restart will not know. -/
theorem C24_failed_set_memory_differs :
    ∃ m d may, MetaHist demoPb (some m) d may ∧ m = ⟨4, vB⟩ ∧ demoPb.loadMeta d false = some ⟨3, vA⟩ :=
  ⟨⟨4, vB⟩, _, _, .setFails (d' := (demoPb.setOk ⟨none, none⟩ ⟨3, vA⟩ true).2) ⟨4, vB⟩ true
    (.setOk ⟨3, vA⟩ true (.opened true (.start none) rfl) demo_pair_fits.1) (Or.inl rfl), rfl, by decide +kernel⟩

/-- Outside the process-crash model (e.g. after a power failure with raft_sync_meta off) the file may
be short. Then a stale errno of ENOENT makes the storage start with term 1 and no vote, silently
(raft_meta.cpp:506 tests errno, which a short read does not set). -/
theorem C24_short_file_and_stale_errno (c : Pb) (f : Bytes) (h : f.length < 4) (tmp : Option Bytes) :
    c.loadMeta ⟨some f, tmp⟩ true = some .fresh ∧ c.loadMeta ⟨some f, tmp⟩ false = none := by
  have hp : load ⟨some f, tmp⟩ = .short := by
    unfold load pread
    dsimp only
    rw [if_pos (by simp; omega)]
  unfold Pb.loadMeta
  rw [hp]
  exact ⟨rfl, rfl⟩

/-! ## C25 -/

/-- Specification: `q` is at least as new as `p`: of a later term, or of the same term with the same
vote, `p` possibly lacking it. -/
def UpTo (p q : Pair) : Prop :=
  p.term < q.term ∨ (p.term = q.term ∧ (PeerId.eqv p.voted q.voted = true ∨ p.voted.isEmpty = true))

/-- Two votes for different peers in the same term. -/
def Conflict (p q : Pair) : Prop :=
  p.term = q.term ∧ p.voted.isEmpty = false ∧ q.voted.isEmpty = false ∧ PeerId.eqv p.voted q.voted = false

/-- What the merged store stands for: no record is term 1 without a vote. -/
def Stores.mergedPair (s : Stores) : Pair := s.merged.getD .fresh

theorem upTo_refl (p : Pair) : UpTo p p := Or.inr ⟨rfl, Or.inl (PeerId.eqv_refl _)⟩

theorem eqv_empty {a b : PeerId} (h : PeerId.eqv a b = true) : a.isEmpty = b.isEmpty := by
  obtain ⟨h1, h2, h3⟩ := PeerId.eqv_iff.mp h
  simp [PeerId.isEmpty, h1, h2, h3]

theorem upTo_trans {p q r : Pair} (h1 : UpTo p q) (h2 : UpTo q r) : UpTo p r := by
  rcases h1 with h1 | ⟨h1, h1'⟩
  · rcases h2 with h2 | ⟨h2, _⟩
    · exact Or.inl (by omega)
    · exact Or.inl (by omega)
  · rcases h2 with h2 | ⟨h2, h2'⟩
    · exact Or.inl (by omega)
    · refine Or.inr ⟨by omega, ?_⟩
      rcases h1' with h1' | h1'
      · rcases h2' with h2' | h2'
        · exact Or.inl (PeerId.eqv_trans h1' h2')
        · exact Or.inr (by rw [eqv_empty h1']; exact h2')
      · exact Or.inr h1'

theorem empty_eqv {a b : PeerId} (h1 : a.isEmpty = true) (h2 : b.isEmpty = true) : PeerId.eqv a b = true := by
  simp only [PeerId.isEmpty, Bool.and_eq_true, decide_eq_true_eq] at h1 h2
  rw [PeerId.eqv_iff]; omega

theorem newer_upTo {p q : Pair} (h3 : newer p q = true) : UpTo q p := by
  simp only [newer, Bool.or_eq_true, Bool.and_eq_true, decide_eq_true_eq] at h3
  rcases h3 with h3 | ⟨⟨h3, _⟩, h4⟩
  · exact Or.inl h3
  · exact Or.inr ⟨h3.symm, Or.inr h4⟩

theorem not_newer_upTo {p q : Pair} (h2 : ¬ (p.term = q.term ∧ (!p.voted.isEmpty) = true ∧ (!q.voted.isEmpty) = true))
    (h3 : ¬ newer p q = true) : UpTo p q := by
  simp only [newer, Bool.or_eq_true, Bool.and_eq_true, decide_eq_true_eq, Bool.not_eq_true',
    not_or, not_and, Bool.not_eq_true] at h3
  by_cases ht : p.term = q.term
  · refine Or.inr ⟨ht, ?_⟩
    cases hp : p.voted.isEmpty with
    | true => exact Or.inr rfl
    | false =>
      have h4 := h3.2 ⟨ht, hp⟩
      exact absurd ⟨ht, by simp [hp], by simp [h4]⟩ h2
  · exact Or.inl (by have := h3.1; omega)

/-- C25, one call: from any contents of the two stores and whatever the inner calls do. If
get_term_and_votedfor succeeds, it returns the content of one of the stores that is at least as new as
both, and both stores then hold it (up to the role of the peer, which comparisons ignore). It refuses
with EINVAL only if the stores hold different votes of one term, and then it changes neither of them;
in that case it never succeeds. -/
theorem C25_get (s : Stores) (e : Env) :
    (∀ p, (mixedGet s e).2 = .ok p →
        (p = s.single ∨ p = Stores.mergedPair s) ∧ UpTo s.single p ∧ UpTo (Stores.mergedPair s) p ∧
        (mixedGet s e).1.single = p ∧
        ∃ q, (mixedGet s e).1.merged = some q ∧ q.term = p.term ∧ PeerId.eqv p.voted q.voted = true) ∧
    ((mixedGet s e).2 = .conflict → Conflict s.single (Stores.mergedPair s) ∧
        (mixedGet s e).1.single = s.single ∧ Stores.mergedPair (mixedGet s e).1 = Stores.mergedPair s) ∧
    (Conflict s.single (Stores.mergedPair s) → ∀ p, (mixedGet s e).2 ≠ .ok p) := by
  unfold mixedGet
  have hg : (mergedGet s.merged e.readOk e.firstW).2 = none ∨
      (mergedGet s.merged e.readOk e.firstW) = (some (Stores.mergedPair s), some (Stores.mergedPair s)) := by
    unfold mergedGet Stores.mergedPair
    cases e.readOk <;> cases s.merged <;> cases e.firstW <;> simp [W.put]
  rcases hg with hg | hg
  · generalize mergedGet s.merged e.readOk e.firstW = r at hg
    obtain ⟨m, r⟩ := r
    simp only at hg
    subst hg
    simp
  · rw [hg]
    dsimp only
    generalize hq : Stores.mergedPair s = q
    generalize s.single = p
    by_cases h1 : p.term = q.term ∧ PeerId.eqv p.voted q.voted
    · rw [if_pos h1]
      refine ⟨fun x hx => ?_, fun h => by simp at h, fun hc => ?_⟩
      · simp only [Got.ok.injEq] at hx
        subst hx
        exact ⟨Or.inl rfl, upTo_refl _, Or.inr ⟨h1.1.symm, Or.inl (PeerId.eqv_symm h1.2)⟩, rfl, q, rfl, h1.1.symm, h1.2⟩
      · have := hc.2.2.2; rw [h1.2] at this; simp at this
    · rw [if_neg h1]
      by_cases h2 : p.term = q.term ∧ (!p.voted.isEmpty) = true ∧ (!q.voted.isEmpty) = true
      · rw [if_pos h2]
        refine ⟨fun x hx => by simp at hx, fun _ => ⟨⟨h2.1, by simpa using h2.2.1, by simpa using h2.2.2, ?_⟩, rfl, rfl⟩,
          fun _ p hp => by simp at hp⟩
        cases h : PeerId.eqv p.voted q.voted with
        | false => rfl
        | true => exact absurd ⟨h2.1, h⟩ h1
      · rw [if_neg h2]
        have hnc : ¬ Conflict p q := fun hc => h2 ⟨hc.1, by simp [hc.2.1], by simp [hc.2.2.1]⟩
        by_cases h3 : newer p q = true
        · rw [if_pos h3]
          have hu : UpTo q p := newer_upTo h3
          refine ⟨fun x hx => ?_, fun h => ?_, fun h => absurd h hnc⟩
          · cases hw : e.mergedW with
            | ok =>
              rw [hw] at hx
              simp at hx
              subst hx
              exact ⟨Or.inl rfl, upTo_refl _, hu, rfl, p, rfl, rfl, PeerId.eqv_refl _⟩
            | lost => rw [hw] at hx; simp at hx
            | kept => rw [hw] at hx; simp at hx
          · cases hw : e.mergedW <;> rw [hw] at h <;> simp at h
        · rw [if_neg h3]
          have hu : UpTo p q := not_newer_upTo h2 h3
          refine ⟨fun x hx => ?_, fun h => ?_, fun h => absurd h hnc⟩
          · cases hw : e.singleOk with
            | true =>
              rw [hw] at hx
              simp at hx
              subst hx
              exact ⟨Or.inr rfl, hu, upTo_refl _, rfl, q, rfl, rfl, PeerId.eqv_refl _⟩
            | false => rw [hw] at hx; simp at hx
          · cases hw : e.singleOk <;> rw [hw] at h <;> simp at h

example : (mixedGet ⟨⟨5, vA⟩, some ⟨4, vB⟩⟩ ⟨true, .ok, .ok, true⟩) = (⟨⟨5, vA⟩, some ⟨5, vA⟩⟩, .ok ⟨5, vA⟩) ∧
    (mixedGet ⟨⟨5, {}⟩, some ⟨5, vB⟩⟩ ⟨true, .ok, .ok, true⟩) = (⟨⟨5, vB⟩, some ⟨5, vB⟩⟩, .ok ⟨5, vB⟩) ∧
    (mixedGet ⟨⟨5, vA⟩, some ⟨5, vB⟩⟩ ⟨true, .ok, .ok, true⟩).2 = .conflict ∧
    Conflict ⟨5, vA⟩ ⟨5, vB⟩ := by
  unfold Conflict
  decide

/-- Histories of a mixed storage, with the newest acknowledged pair `acked`: the pair of the last
set that returned OK or of the last successful get. `cur` is the pair the running process last read or
tried to store; a caller never stores a pair older than that (a node's term never decreases and its
vote in a term is never changed, C05 and C06).

The stores may start with any contents: left by an earlier life with only one of the two storages
(upgrade, downgrade); what was acknowledged then is in one of the two. Each call may fail or be killed
after either write. -/
inductive MixedHist (s0 : Stores) : Option Pair → Stores → Pair → Prop where
  | start (acked : Pair) : UpTo acked s0.single ∨ UpTo acked (Stores.mergedPair s0) →
      MixedHist s0 none s0 acked
  | boot {s acked} (e : Env) (p : Pair) : MixedHist s0 none s acked → (mixedGet s e).2 = .ok p →
      MixedHist s0 (some p) (mixedGet s e).1 p
  | bootFails {s acked} (e : Env) : MixedHist s0 none s acked → (∀ p, (mixedGet s e).2 ≠ .ok p) →
      MixedHist s0 none (mixedGet s e).1 acked
  | setOk {cur s acked} (p : Pair) (singleOk : Bool) (w : W) : MixedHist s0 (some cur) s acked → UpTo cur p →
      (mixedSet s p singleOk w).2 = true → MixedHist s0 (some p) (mixedSet s p singleOk w).1 p
  | setFails {cur s acked} (p : Pair) (singleOk : Bool) (w : W) : MixedHist s0 (some cur) s acked → UpTo cur p →
      (mixedSet s p singleOk w).2 = false → MixedHist s0 (some p) (mixedSet s p singleOk w).1 acked
  | killedInSet {cur s acked} (p : Pair) (singleDone mergedDone : Bool) : MixedHist s0 (some cur) s acked →
      UpTo cur p →
      MixedHist s0 none (if singleDone then ⟨p, if mergedDone then some p else s.merged⟩ else s) acked
  | killed {cur s acked} : MixedHist s0 (some cur) s acked → MixedHist s0 none s acked

/-- get only brings the stores forward, or leaves them alone if it does not succeed. -/
theorem mixedGet_mono (s : Stores) (e : Env) :
    UpTo s.single (mixedGet s e).1.single ∧
    UpTo (Stores.mergedPair s) (Stores.mergedPair (mixedGet s e).1) := by
  unfold mixedGet
  have hm : ∀ x, Stores.mergedPair ⟨x, (mergedGet s.merged e.readOk e.firstW).1⟩ = Stores.mergedPair s := by
    intro x
    unfold mergedGet Stores.mergedPair
    cases e.readOk <;> cases s.merged <;> cases e.firstW <;> rfl
  have hq : ∀ q, (mergedGet s.merged e.readOk e.firstW).2 = some q → q = Stores.mergedPair s := by
    intro q hg
    unfold mergedGet at hg
    unfold Stores.mergedPair
    cases hr : e.readOk <;> cases hs : s.merged <;> cases hf : e.firstW <;> rw [hr, hs, hf] at hg <;> simp at hg
    all_goals first | exact hg.symm | rfl
  generalize mergedGet s.merged e.readOk e.firstW = r at hm hq
  obtain ⟨m, r⟩ := r
  cases r with
  | none => dsimp only; rw [hm]; exact ⟨upTo_refl _, upTo_refl _⟩
  | some q =>
    have hq := hq q rfl
    dsimp only at hm ⊢
    split
    · rw [hm]; exact ⟨upTo_refl _, upTo_refl _⟩
    · rename_i h1
      split
      · rw [hm]; exact ⟨upTo_refl _, upTo_refl _⟩
      · rename_i h2
        split
        · rename_i h3
          refine ⟨upTo_refl _, ?_⟩
          have hu := newer_upTo h3
          rw [hq] at hu
          cases e.mergedW with
          | ok => exact hu
          | lost => show UpTo _ (Stores.mergedPair ⟨s.single, m⟩); rw [hm]; exact upTo_refl _
          | kept => exact hu
        · rename_i h3
          rw [hm]
          refine ⟨?_, upTo_refl _⟩
          cases e.singleOk with
          | true => exact not_newer_upTo h2 h3
          | false => exact upTo_refl _

/-- C25: whatever happened - failed writes, crashes between the two writes, an earlier life with only
one of the storages - get_term_and_votedfor at a restart never returns anything older than the newest
acknowledged pair. -/
theorem C25_never_lost {s0 s : Stores} {acked : Pair} (h : MixedHist s0 none s acked) (e : Env) (p : Pair)
    (hp : (mixedGet s e).2 = .ok p) : UpTo acked p := by
  have inv : ∀ {proc s acked}, MixedHist s0 proc s acked →
      (UpTo acked s.single ∨ UpTo acked (Stores.mergedPair s)) ∧ ∀ c, proc = some c → UpTo acked c := by
    intro proc s acked h
    induction h with
    | start acked h => exact ⟨h, by simp⟩
    | @boot s acked e p _ hp ih =>
      obtain ⟨_, _, _, h3, _⟩ := (C25_get s e).1 p hp
      refine ⟨Or.inl (by rw [h3]; exact upTo_refl _), fun c hc => ?_⟩
      cases hc; exact upTo_refl _
    | @bootFails s acked e _ _ ih =>
      have hm := mixedGet_mono s e
      refine ⟨?_, by simp⟩
      rcases ih.1 with h | h
      · exact Or.inl (upTo_trans h hm.1)
      · exact Or.inr (upTo_trans h hm.2)
    | @setOk cur s acked p so w _ hu hr ih =>
      refine ⟨?_, fun c hc => by cases hc; exact upTo_refl _⟩
      unfold mixedSet at hr ⊢
      cases so with
      | false => simp at hr
      | true => exact Or.inl (upTo_refl _)
    | @setFails cur s acked p so w _ hu hr ih =>
      have hp := upTo_trans (ih.2 _ rfl) hu
      refine ⟨?_, fun c hc => by cases hc; exact hp⟩
      unfold mixedSet
      cases so with
      | false => exact ih.1
      | true => exact Or.inl hp
    | @killedInSet cur s acked p sd md _ hu ih =>
      refine ⟨?_, by simp⟩
      cases sd with
      | false => exact ih.1
      | true => exact Or.inl (upTo_trans (ih.2 _ rfl) hu)
    | killed _ ih => exact ⟨ih.1, by simp⟩
  obtain ⟨_, h1, h2, _⟩ := (C25_get s e).1 p hp
  rcases (inv h).1 with h | h
  · exact upTo_trans h h1
  · exact upTo_trans h h2

/-- Comparable stores stay comparable. -/
theorem mixedGet_cmp (s : Stores) (e : Env)
    (h : UpTo s.single (Stores.mergedPair s) ∨ UpTo (Stores.mergedPair s) s.single) :
    UpTo (mixedGet s e).1.single (Stores.mergedPair (mixedGet s e).1) ∨
    UpTo (Stores.mergedPair (mixedGet s e).1) (mixedGet s e).1.single := by
  unfold mixedGet
  have hm : ∀ x, Stores.mergedPair ⟨x, (mergedGet s.merged e.readOk e.firstW).1⟩ = Stores.mergedPair s := by
    intro x
    unfold mergedGet Stores.mergedPair
    cases e.readOk <;> cases s.merged <;> cases e.firstW <;> rfl
  have hq : ∀ q, (mergedGet s.merged e.readOk e.firstW).2 = some q → q = Stores.mergedPair s := by
    intro q hg
    unfold mergedGet at hg
    unfold Stores.mergedPair
    cases hr : e.readOk <;> cases hs : s.merged <;> cases hf : e.firstW <;> rw [hr, hs, hf] at hg <;> simp at hg
    all_goals first | exact hg.symm | rfl
  generalize mergedGet s.merged e.readOk e.firstW = r at hm hq
  obtain ⟨m, r⟩ := r
  cases r with
  | none => dsimp only; rw [hm]; exact h
  | some q =>
    have hq := hq q rfl
    dsimp only at hm ⊢
    split
    · rw [hm]; exact h
    · split
      · rw [hm]; exact h
      · split
        · cases e.mergedW with
          | ok => exact Or.inl (upTo_refl _)
          | lost => show UpTo _ (Stores.mergedPair ⟨s.single, m⟩) ∨ UpTo (Stores.mergedPair ⟨s.single, m⟩) _; rw [hm]; exact h
          | kept => exact Or.inl (upTo_refl _)
        · rw [hm]
          cases e.singleOk with
          | true => rw [← hq]; exact Or.inl (upTo_refl _)
          | false => exact h

theorem upTo_no_conflict {p q : Pair} (h : UpTo p q ∨ UpTo q p) : ¬ Conflict p q := by
  intro hc
  obtain ⟨h1, h2, h3, h4⟩ := hc
  rcases h with h | h
  · rcases h with h | ⟨_, h | h⟩
    · omega
    · rw [h] at h4; simp at h4
    · rw [h] at h2; simp at h2
  · rcases h with h | ⟨_, h | h⟩
    · omega
    · rw [PeerId.eqv_symm h] at h4; simp at h4
    · rw [h] at h3; simp at h3

/-- C25: if the two storages did not disagree when the mixed storage was first used (for example one of
them is new), get_term_and_votedfor never refuses because of a conflict, whatever failures and crashes
happen. -/
theorem C25_no_false_conflict {s0 s : Stores} {acked : Pair}
    (h0 : UpTo s0.single (Stores.mergedPair s0) ∨ UpTo (Stores.mergedPair s0) s0.single)
    (h : MixedHist s0 none s acked) (e : Env) : (mixedGet s e).2 ≠ .conflict := by
  have inv : ∀ {proc s acked}, MixedHist s0 proc s acked →
      (UpTo s.single (Stores.mergedPair s) ∨ UpTo (Stores.mergedPair s) s.single) ∧
      ∀ c, proc = some c → UpTo (Stores.mergedPair s) s.single ∧ UpTo s.single c := by
    intro proc s acked h
    induction h with
    | start acked h => exact ⟨h0, by simp⟩
    | @boot s acked e p _ hp ih =>
      obtain ⟨_, _, _, h3, q, h4, h5, h6⟩ := (C25_get s e).1 p hp
      have hu : UpTo (Stores.mergedPair (mixedGet s e).1) (mixedGet s e).1.single := by
        unfold Stores.mergedPair
        rw [h4, h3]
        exact Or.inr ⟨h5, Or.inl (PeerId.eqv_symm h6)⟩
      refine ⟨Or.inr hu, fun c hc => ?_⟩
      cases hc
      exact ⟨hu, by rw [h3]; exact upTo_refl _⟩
    | @bootFails s acked e _ hn ih =>
      refine ⟨?_, by simp⟩
      exact mixedGet_cmp s e ih.1
    | @setOk cur s acked p so w _ hu hr ih =>
      unfold mixedSet at hr ⊢
      cases so with
      | false => simp at hr
      | true =>
        have hw : w = .ok := by simpa using hr
        subst hw
        exact ⟨Or.inl (upTo_refl _), fun c hc => by cases hc; exact ⟨upTo_refl _, upTo_refl _⟩⟩
    | @setFails cur s acked p so w _ hu hr ih =>
      obtain ⟨hms, hsc⟩ := ih.2 _ rfl
      unfold mixedSet
      cases so with
      | false => exact ⟨ih.1, fun c hc => by cases hc; exact ⟨hms, upTo_trans hsc hu⟩⟩
      | true =>
        have hx : UpTo (Stores.mergedPair ⟨p, w.put s.merged p⟩) p := by
          cases w with
          | ok => exact upTo_refl _
          | lost => exact upTo_trans (upTo_trans hms hsc) hu
          | kept => exact upTo_refl _
        exact ⟨Or.inr hx, fun c hc => by cases hc; exact ⟨hx, upTo_refl _⟩⟩
    | @killedInSet cur s acked p sd md _ hu ih =>
      obtain ⟨hms, hsc⟩ := ih.2 _ rfl
      refine ⟨Or.inr ?_, by simp⟩
      cases sd with
      | false => exact hms
      | true =>
        cases md with
        | true => exact upTo_refl _
        | false => exact upTo_trans (upTo_trans hms hsc) hu
    | killed _ ih => exact ⟨ih.1, by simp⟩
  intro hc
  exact upTo_no_conflict (inv h).1 ((C25_get s e).2.1 hc).1

/-- A history: an upgrade from the single storage (term 5, vote A) with a new merged storage; booted;
(6, no vote) stored; killed between the two writes of (6, B). -/
example : MixedHist ⟨⟨5, vA⟩, none⟩ none ⟨⟨6, vB⟩, some ⟨6, {}⟩⟩ ⟨6, {}⟩ :=
  .killedInSet (s := ⟨⟨6, {}⟩, some ⟨6, {}⟩⟩) ⟨6, vB⟩ true false
    (.setOk (s := ⟨⟨5, vA⟩, some ⟨5, vA⟩⟩) ⟨6, {}⟩ true .ok
      (.boot ⟨true, .ok, .ok, true⟩ ⟨5, vA⟩ (.start ⟨5, vA⟩ (Or.inl (upTo_refl _))) rfl) (Or.inl (by decide)) rfl)
    (Or.inr ⟨rfl, Or.inr rfl⟩)

example : (mixedGet ⟨⟨6, vB⟩, some ⟨6, {}⟩⟩ ⟨true, .ok, .ok, true⟩).2 = .ok ⟨6, vB⟩ := by decide

end Braft.Props
