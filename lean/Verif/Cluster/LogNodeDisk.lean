import Verif.Cluster.LogNodeAppend
/-
Every step of the joint model keeps the relation between a server's list and its LogManager: the disk thread,
failures, and the restart after them.
-/
set_option linter.unusedVariables false
set_option linter.unusedSimpArgs false
set_option linter.unusedSectionVars false

namespace Braft.Cl
open Braft.Raft
open Braft.MemLog (Ent Consec)
open Braft.LogMgr (Sto Id number)
variable {N D : Type} [DecidableEq N] [DecidableEq D] {p : CParams} {c0 : Conf N}

/-- `k` steps of the disk queue are done. -/
structure After (k : Nat) (c c' : Srv N D) : Prop where
  queue : c'.queue = c.queue.drop k
  disk : c'.disk = drainJobs c.disk (c.queue.take k)
  log : c'.log = c.log
  snap : c'.snap = c.snap
  psnap : c'.psnap = c.psnap
  applied : c'.applied = c.applied
  sm : c'.sm = c.sm
  dl : c'.dl = c.dl

theorem sDisk_after (i : N) (c : Srv N D) (h : c.queue ≠ []) : After 1 c (sDisk i c).1 := by
  cases hq : c.queue with
  | nil => exact absurd hq h
  | cons j q =>
    have hd : drainJobs c.disk ((j :: q).take 1) = applyJob c.disk j := by simp [drainJobs]
    constructor
    all_goals
      unfold sDisk
      rw [hq]
      cases j <;> dsimp only <;> (try split) <;> first | rfl | (rw [hd]) | (rw [hd]; rfl)

theorem CSteps.trans' {s s' s'' : CSys N D} (h1 : CSteps p c0 s s') (h2 : CSteps p c0 s' s'') : CSteps p c0 s s'' := by
  induction h2 with
  | refl => exact h1
  | tail a _ h ih => exact .tail a ih h

theorem diskN_ok (i : N) (k : Nat) (s : CSys N D) (hk : k ≤ (s.node i).queue.length) :
    ∃ s', diskN p c0 i k s = some s' ∧ CSteps p c0 s s' ∧ After k (s.node i) (s'.node i) ∧
      (∀ j, j ≠ i → s'.node j = s.node j) ∧ s.ev <:+ s'.ev := by
  induction k generalizing s with
  | zero =>
    exact ⟨s, rfl, .refl, ⟨by simp, by simp [drainJobs], rfl, rfl, rfl, rfl, rfl, rfl⟩, fun _ _ => rfl, List.suffix_refl _⟩
  | succ k ih =>
    have hq : (s.node i).queue ≠ [] := by
      intro h0; rw [h0] at hk; simp at hk
    have hst : cstep p c0 s (.disk i) = some { node := updF s.node i (sDisk i (s.node i)).1, msgs := (sDisk i (s.node i)).2.1 ++ s.msgs, ev := (sDisk i (s.node i)).2.2 ++ s.ev } := by
      unfold cstep
      rw [if_pos (by simp only [cpre, decide_eq_true_eq]; exact hq)]
      rfl
    have ha := sDisk_after i (s.node i) hq
    obtain ⟨s', h1, h2, h3, h4, h5⟩ := ih { node := updF s.node i (sDisk i (s.node i)).1, msgs := (sDisk i (s.node i)).2.1 ++ s.msgs, ev := (sDisk i (s.node i)).2.2 ++ s.ev } (show k ≤ (updF s.node i (sDisk i (s.node i)).1 i).queue.length by
      simp only [updF, if_true]
      rw [ha.queue, List.length_drop]
      omega)
    simp only [updF, if_true] at h3
    refine ⟨s', ?_, CSteps.trans' (.tail _ .refl hst) h2, ?_, ?_, ?_⟩
    · show (cstep p c0 s (.disk i)).bind _ = _
      rw [hst]
      exact h1
    · refine ⟨?_, ?_, h3.log.trans ha.log, h3.snap.trans ha.snap, h3.psnap.trans ha.psnap, h3.applied.trans ha.applied,
        h3.sm.trans ha.sm, h3.dl.trans ha.dl⟩
      · rw [h3.queue, ha.queue, List.drop_drop]
        congr 1
        omega
      · rw [h3.disk, ha.disk, ha.queue, ← drainJobs_append, show k + 1 = 1 + k by omega, List.take_add]
    · intro j hj
      rw [h4 j hj]
      simp only [updF, hj, if_false]
    · exact (List.suffix_append _ _).trans h5

/-- Both sides have done the pairs `z1`. -/
theorem Live.pop {c c' : Srv N D} {x : LNode N D} {m' : LM N D} {z1 z2 : List (Pair N D)} (h : Live c x) (hz : x.z = z1 ++ z2)
    (hA : After (flat z1).length c c') (hi : ∃ L, LogMgr.Inv m' L) (he : m'.err = false)
    (hs : x.lm.store.runAll (lmJobs z1) = some m'.store) (hq : m'.queue = lmJobs z2) (hsn : m'.snap = x.lm.snap)
    (ha : m'.applied = x.lm.applied) (hv : m'.virt = x.lm.virt) (hf : m'.first = x.lm.first) : Live c' ⟨m', z2⟩ := by
  have hcq := h.cq
  rw [hz, flat_append] at hcq
  have hdk : c'.disk = drainJobs c.disk (flat z1) := by rw [hA.disk, hcq, List.take_left]
  have hzz : ZOk c.disk x.lm.store (z1 ++ z2) := by rw [← hz]; exact h.zok
  have hzb : ZBase c.log c.snap c.disk x.lm.store (z1 ++ z2) := by rw [← hz]; exact h.bs
  obtain ⟨hz1, hz2⟩ := hzz.split
  obtain ⟨a', h1, h2, h3⟩ := hz1.run h.st
  rw [hs] at h1
  cases h1
  refine ⟨he, hi, ?_, hq, ?_, ?_, ?_, ?_, ?_, ?_, ?_⟩
  · rw [hA.queue, hcq, List.drop_left]
  · rw [hdk]; exact h2
  · rw [hdk]; exact hz2 _ hs
  · rw [hA.snap]; show m'.snap = _; rw [hsn]; exact h.snap
  · rw [hA.applied, hA.log]; show m'.applied = _; rw [ha]; exact h.app
  · rw [hA.log]; show ∀ n : Nat, m'.virt.index = n → _; rw [hv]; exact h.virt
  · rw [hA.snap]; show m'.first - 1 ≤ _; rw [hf]; exact h.fst
  · rw [hA.log, hA.snap, hdk]
    exact hzb.after _ hs

theorem allAppends_of {js : List (LJob N D)} (h : js.all isAppend = true) : LogMgr.AllAppends js := by
  intro j hj
  have := List.all_eq_true.mp h j hj
  cases j with
  | append es c => exact ⟨es, c, rfl, by intro h0; rw [h0] at this; simp [isAppend] at this⟩
  | truncPrefix _ => cases this
  | truncSuffix _ _ => cases this
  | reset _ => cases this
  | lastId _ _ => cases this

theorem jobEnts_cons_append (es : List (Ent (Payload N D))) (cid : Nat) (js : List (LJob N D)) :
    LogMgr.jobEnts (.append es cid :: js) = es ++ LogMgr.jobEnts js := rfl

/-- A batch of appends of which the first `n` entries reached the disk. -/
theorem part_appends {d : Log N D} {a : Sto (Payload N D)} {z : List (Pair N D)} (hz : ZOk d a z) (hr : StoR d a)
    (ha : (lmJobs z).all isAppend = true) (n : Nat) (hn : n ≤ (LogMgr.jobEnts (lmJobs z)).length) :
    ∃ k, k ≤ (flat z).length ∧ d <+: drainJobs d ((flat z).take k) ∧
      StoR (drainJobs d ((flat z).take k)) ⟨a.first, a.ents ++ (LogMgr.jobEnts (lmJobs z)).take n⟩ := by
  induction z generalizing d a n with
  | nil =>
    refine ⟨0, Nat.le_refl _, by simp [drainJobs], ?_⟩
    show StoR d _
    obtain ⟨q, hq⟩ := hr
    exact ⟨q, hq.first, hq.le, by simp [lmJobs, LogMgr.jobEnts, hq.ents]⟩
  | cons b z ih =>
    obtain ⟨hb, hz2⟩ := hz
    obtain ⟨a', h1, h2, h3⟩ := hb.run hr
    have hz' := hz2 a' h1
    cases hb with
    | noop js h =>
      have haa : a' = a := by simp only [runB, Option.some.injEq] at h1; exact h1.symm
      subst haa
      rw [show drainJobs d ((none : Option (LJob N D)), js).2 = d from h] at hz' h2
      obtain ⟨k, hk1, hk2, hk3⟩ := ih hz' h2 ha n hn
      refine ⟨js.length + k, ?_, ?_, ?_⟩
      · rw [flat_cons, List.length_append]; show js.length + k ≤ js.length + _; omega
      · rw [flat_cons]; show d <+: drainJobs d ((js ++ flat z).take (js.length + k))
        rw [List.take_length_add_append, drainJobs_append, h]; exact hk2
      · rw [flat_cons]; show StoR (drainJobs d ((js ++ flat z).take (js.length + k))) _
        rw [List.take_length_add_append, drainJobs_append, h]; exact hk3
    | append l c cid hc =>
      have hlm : lmJobs ((some (LogMgr.Job.append (ents d.length l) cid), l.map Job.push ++ [c]) :: z) = .append (ents d.length l) cid :: lmJobs z := rfl
      rw [hlm] at ha hn ⊢
      rw [jobEnts_cons_append] at hn ⊢
      rw [List.length_append, ents_length] at hn
      rw [List.all_cons, Bool.and_eq_true] at ha
      by_cases hle : n ≤ l.length
      · refine ⟨n, ?_, ?_, ?_⟩
        · rw [flat_cons, List.length_append, List.length_append, List.length_map]; omega
        all_goals
          rw [flat_cons]
          show _
          rw [List.take_append_of_le_length (by show n ≤ (l.map Job.push ++ [c]).length; rw [List.length_append, List.length_map]; omega)]
          dsimp only
          rw [List.take_append_of_le_length (by rw [List.length_map]; omega), ← List.map_take, drain_push]
        · exact List.prefix_append _ _
        · obtain ⟨q, hq⟩ := hr
          have hql := hq.le
          refine ⟨q, hq.first, by rw [List.length_append]; omega, ?_⟩
          show a.ents ++ _ = _
          rw [List.take_append_of_le_length (by rw [ents_length]; omega), ents_take, hq.ents,
            List.drop_append_of_le_length hq.le, ents_append, List.length_drop]
          congr 2
          omega
      · have hd : drainJobs d (l.map Job.push ++ [c]) = d ++ l := by
          rw [drainJobs_append, drain_push]
          exact hc _
        have haa : a' = ⟨a.first, a.ents ++ ents d.length l⟩ := by
          cases l with
          | nil => simp [isAppend, ents_nil] at ha
          | cons e l =>
            obtain ⟨q, hq⟩ := hr
            simp only [runB, Sto.run] at h1
            rw [ents_cons] at h1 ⊢
            rw [hq.last] at h1
            simp at h1
            exact h1.symm
        subst haa
        have h2' : StoR (d ++ l) ⟨a.first, a.ents ++ ents d.length l⟩ := by rw [← hd]; exact h2
        have hz'' : ZOk (d ++ l) ⟨a.first, a.ents ++ ents d.length l⟩ z := by rw [← hd]; exact hz'
        obtain ⟨k, hk1, hk2, hk3⟩ := ih hz'' h2' ha.2 (n - l.length) (by omega)
        refine ⟨(l.map Job.push ++ [c]).length + k, ?_, ?_, ?_⟩
        · rw [flat_cons]
          show (l.map Job.push ++ [c]).length + k ≤ ((l.map Job.push ++ [c]) ++ flat z).length
          rw [List.length_append (as := l.map Job.push ++ [c]) (bs := flat z)]
          omega
        all_goals
          rw [flat_cons]
          dsimp only
          rw [List.take_length_add_append, drainJobs_append, hd]
        · exact (List.prefix_append _ _).trans hk2
        · dsimp only at hk3
          have ht : (ents d.length l).take n = ents d.length l := List.take_of_length_le (by rw [ents_length]; omega)
          rw [List.take_append, ents_length, ht, ← List.append_assoc]
          exact hk3
    | ask cid w =>
      have hlm : lmJobs ((some (LogMgr.Job.lastId cid w), []) :: z) = .lastId cid w :: lmJobs z := rfl
      rw [hlm, List.all_cons, Bool.and_eq_true] at ha
      cases ha.1
    | suffix k t h1 h2 =>
      have hlm : lmJobs ((some (LogMgr.Job.truncSuffix (k : Int) t), List.replicate (d.length - k) .pop) :: z) = .truncSuffix (k : Int) t :: lmJobs z := rfl
      rw [hlm, List.all_cons, Bool.and_eq_true] at ha
      cases ha.1
    | pre k js h1 h2 h3 h4 =>
      have hlm : lmJobs ((some (LogMgr.Job.truncPrefix ((k : Int) + 1)), js) :: z) = .truncPrefix ((k : Int) + 1) :: lmJobs z := rfl
      rw [hlm, List.all_cons, Bool.and_eq_true] at ha
      cases ha.1
    | reset k js h1 h2 =>
      have hlm : lmJobs ((some (LogMgr.Job.reset ((k : Int) + 1)), js) :: z) = .reset ((k : Int) + 1) :: lmJobs z := rfl
      rw [hlm, List.all_cons, Bool.and_eq_true] at ha
      cases ha.1

/-- A job without entries that failed. -/
theorem part_job {l S d : Log N D} {a : Sto (Payload N D)} {j : LJob N D} {js : List (Job N D)} {z : List (Pair N D)}
    (hz : ZOk d a ((some j, js) :: z)) (hr : StoR d a) (hb : ZBase l S d a ((some j, js) :: z)) (ha : isAppend j = false)
    (hS : ∀ a', a.run j = some a' → a'.first - 1 ≤ S.length) (n : Nat) :
    ∃ k, k ≤ js.length ∧ StoR (drainJobs d (js.take k)) (partOf a j n) ∧ Base l S (drainJobs d (js.take k)) (partOf a j n) ∧
      (partOf a j n).first - 1 ≤ S.length := by
  have hb0 := hb.head
  obtain ⟨a', h1, h2, h3⟩ := hz.1.run hr
  have hS' := hS a' h1
  have hb1 := (hb.2 a' h1).head
  have same : partOf a j n = a → ∃ k, k ≤ js.length ∧ StoR (drainJobs d (js.take k)) (partOf a j n) ∧
      Base l S (drainJobs d (js.take k)) (partOf a j n) ∧ (partOf a j n).first - 1 ≤ S.length := by
    intro he
    rw [he]
    exact ⟨0, Nat.zero_le _, hr, hb0, by omega⟩
  generalize hbk : ((some j, js) : Pair N D) = b at hz hb
  have hblk := hz.1
  clear hz
  cases hblk with
  | noop _ _ => cases hbk
  | ask cid w => cases hbk; exact same rfl
  | append l' c cid hc =>
    cases hbk
    exact same rfl
  | suffix k t g1 g2 =>
    cases hbk
    obtain ⟨q, hq⟩ := hr
    have hqf := hq.first
    have hql := hq.le
    have htn : ((k : Int) + 1 - a.first).toNat = k - q := by omega
    refine ⟨d.length - (q + max n (k - q)), ?_, ?_, ?_, ?_⟩
    · rw [List.length_replicate]; omega
    · rw [List.take_replicate, Nat.min_eq_left (by omega), drain_pop]
      refine ⟨q, hqf, by rw [List.length_take]; omega, ?_⟩
      show a.ents.take (max n _) = _
      rw [htn, hq.ents, ents_take, List.drop_take]
      congr 1
      by_cases hc : q + max n (k - q) ≤ d.length
      · rw [show d.length - (d.length - (q + max n (k - q))) - q = max n (k - q) by omega]
      · rw [List.take_of_length_le (by rw [List.length_drop]; omega), List.take_of_length_le (by rw [List.length_drop]; omega)]
    · rw [List.take_replicate, Nat.min_eq_left (by omega), drain_pop]
      rcases hb0 with hb0 | hb0
      · exact Or.inl hb0
      · right
        show (d.take _).take (a.first - 1).toNat = _
        rw [List.take_take, Nat.min_eq_left (by omega)]
        exact hb0
    · show a.first - 1 ≤ _; omega
  | pre k js' g1 g2 g3 g4 =>
    cases hbk
    obtain ⟨q, hq⟩ := hr
    have hqf := hq.first
    have hql := hq.le
    have htn : ((k : Int) + 1 - a.first).toNat = k - q := by omega
    have hel : a.ents.length = d.length - q := by rw [hq.ents, ents_length, List.length_drop]
    have hfa : a'.first = (k : Int) + 1 := by
      simp only [runB, Sto.run] at h1
      rw [if_pos g1] at h1
      cases h1; rfl
    have hpart : partOf a (.truncPrefix ((k : Int) + 1)) n =
        ⟨a.first + (min n (min (k - q) (d.length - q)) : Nat), a.ents.drop (min n (min (k - q) (d.length - q)))⟩ := by
      unfold partOf
      dsimp only
      rw [htn, hel]
    rw [hpart]
    generalize hw : min n (min (k - q) (d.length - q)) = w
    have hw1 : w ≤ k - q := by omega
    have hw2 : w ≤ d.length - q := by omega
    refine ⟨0, Nat.zero_le _, ?_, ?_, ?_⟩
    · refine ⟨q + w, ?_, ?_, ?_⟩
      · show a.first + (w : Int) = _; omega
      · show q + w ≤ d.length; omega
      · show a.ents.drop w = ents (q + w) (d.drop (q + w))
        rw [hq.ents, ents_drop _ _ _ (by rw [List.length_drop]; omega), List.drop_drop]
    · show Base l S d _
      rcases hb1 with hb1 | hb1
      · left; show a.first + (w : Int) - 1 < _; omega
      · by_cases hkd : k ≤ d.length
        · right
          have hkk : (a'.first - 1).toNat = k := by omega
          rw [hkk, show drainJobs d ((some (LogMgr.Job.truncPrefix ((k : Int) + 1)), js) : Pair N D).2 = d from g4 hkd] at hb1
          have hww : (a.first + (w : Int) - 1).toNat = q + w := by omega
          show d.take (a.first + (w : Int) - 1).toNat = l.take (a.first + (w : Int) - 1).toNat
          rw [hww]
          have ht : ∀ y : Log N D, y.take (q + w) = (y.take k).take (q + w) := by
            intro y; rw [List.take_take, Nat.min_eq_left (by omega)]
          rw [ht d, hb1, ← ht l]
        · left; show a.first + (w : Int) - 1 < _; omega
    · show a.first + (w : Int) - 1 ≤ _; omega
  | reset k js' g1 g2 =>
    cases hbk
    by_cases hn : n = 0
    · exact same (by unfold partOf; simp [hn])
    · have hp' : partOf a (.reset ((k : Int) + 1)) n = a' := by
        simp only [runB, Sto.run] at h1
        rw [if_pos (by omega)] at h1
        cases h1
        unfold partOf
        simp [hn]
      rw [hp']
      refine ⟨js.length, Nat.le_refl _, ?_, ?_, hS'⟩
      · rw [List.take_length]; exact h2
      · rw [List.take_length]; exact hb1

end Braft.Cl
