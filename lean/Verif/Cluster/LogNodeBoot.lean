import Verif.Cluster.LogNodeSnap
/-
Every step of the joint model keeps the relation between a server's list and its LogManager: a snapshot from
the leader, and a restart.
-/
set_option linter.unusedVariables false
set_option linter.unusedSimpArgs false
set_option linter.unusedSectionVars false

namespace Braft.Cl
open Braft.Raft
open Braft.MemLog (Ent Consec)
open Braft.LogMgr (Sto Id number)
variable {N D : Type} [DecidableEq N] [DecidableEq D]

theorem termAt_pos {l : Log N D} (h : ∀ e ∈ l, 1 ≤ e.term) {k : Nat} (h1 : 0 < k) (h2 : k ≤ l.length) : 1 ≤ termAt l k := by
  unfold termAt
  rw [if_neg (by omega), List.getElem?_eq_getElem (by omega)]
  exact h _ (List.getElem_mem _)

theorem snapMerge_eq {K l : Log N D} (h : termAt l K.length = lastTerm K) : snapMerge K l = l := by
  unfold snapMerge; rw [if_pos h]

theorem snapMerge_ne {K l : Log N D} (h : termAt l K.length ≠ lastTerm K) : snapMerge K l = K := by
  unfold snapMerge; rw [if_neg h]

theorem snapMerge_term (K l : Log N D) : termAt (snapMerge K l) K.length = lastTerm K := by
  unfold snapMerge
  split
  · rename_i h; exact h
  · exact termAt_self

/-- A snapshot from the leader was loaded. -/
theorem Live.loaded {c c' : Srv N D} {x : LNode N D} (h : Live c x) (f : SF c) (K : Log N D) (hK : c.dl = some K)
    (hKe : K = c.psnap)
    (hge : (idOf K).lt x.lm.applied = false)
    (hlog : c'.log = snapMerge K c.log) (hd : c'.disk = c.disk) (hcq : c'.queue = c.queue ++ [.snap K])
    (hsn : c'.snap = K) (ha : c'.applied = K.length) :
    Live c' ⟨x.lm.setSnapshot (idOf K), x.z ++
      pairUp ((x.lm.setSnapshot (idOf K)).queue.drop x.lm.queue.length) (c'.queue.drop c.queue.length)⟩ := by
  obtain ⟨n, v⟩ := h.view f
  obtain ⟨hsl, hne, hcmp⟩ := f.dl K hK
  have hap := f.ap
  have hsa := f.sa
  have hfst := h.fst
  have hvf := v.first
  have hsi : x.lm.snap.index = c.snap.length := by rw [h.snap]; rfl
  have hai : x.lm.applied.index = c.applied := by rw [h.app]
  have hat : x.lm.applied.term = termAt c.log c.applied := by rw [h.app]
  have hgt : x.lm.getTerm (K.length : Int) = termAt c.log K.length := v.term (by omega)
  have hta : (c.log.take c.applied).length = c.applied := by rw [List.length_take]; omega
  have hnlt : ¬ ((lastTerm K : Int) < termAt c.log c.applied ∨ ((lastTerm K : Int) = termAt c.log c.applied ∧ (K.length : Int) < c.applied)) := by
    intro hc
    have : (idOf K).lt x.lm.applied = true := by
      rw [idlt_iff, hai, hat]
      exact hc
    rw [hge] at this
    cases this
  -- the snapshot covers what is applied
  have hpre : c.log.take c.applied <+: K := by
    rcases hcmp with h1 | h1
    · have hle := h1.length_le
      rw [hta] at hle
      have h2 : termAt (c.log.take c.applied) K.length = lastTerm K := termAt_pref h1
      have h3 : termAt (c.log.take c.applied) K.length = termAt c.log K.length := by
        have := termAt_append_left (es := c.log.drop c.applied) (show K.length ≤ (c.log.take c.applied).length by omega)
        rw [List.take_append_drop] at this
        exact this.symm
      have h4 := f.mono K.length c.applied hle hap
      have h5 : K.length = c.applied := by omega
      have h6 := h1.eq_of_length (by omega)
      rw [h6]
      exact List.prefix_refl _
    · exact h1
  have hle := hpre.length_le
  rw [hta] at hle
  have htK : termAt K c.applied = termAt c.log c.applied := by
    have h1 := termAt_pref hpre
    rw [hta] at h1
    rw [h1, ← termAt_take hap]
  have hKp : 1 ≤ lastTerm K := by rw [hKe]; exact f.ppos (by rw [← hKe]; exact hne)
  have hapl : (if x.lm.applied.lt (idOf K) then idOf K else x.lm.applied) = idOf K := by
    cases hb : x.lm.applied.lt (idOf K) with
    | true => rfl
    | false =>
      have hnb : ¬ ((termAt c.log c.applied : Int) < lastTerm K ∨ ((termAt c.log c.applied : Int) = lastTerm K ∧ (c.applied : Int) < K.length)) := by
        intro hc
        have : x.lm.applied.lt (idOf K) = true := by
          rw [idlt_iff, hai, hat]
          exact hc
        rw [hb] at this
        cases this
      show x.lm.applied = idOf K
      rw [h.app]
      unfold idOf
      congr 1 <;> omega
  have hord : x.lm.applied.lt (idOf K) = decide (x.lm.applied.index < (idOf K).index) := by
    rw [hai]
    show _ = decide ((c.applied : Int) < K.length)
    by_cases hlt : c.applied < K.length
    · rw [decide_eq_true (by omega), idlt_iff, hai, hat]
      show (termAt c.log c.applied : Int) < lastTerm K ∨ ((termAt c.log c.applied : Int) = lastTerm K ∧ (c.applied : Int) < K.length)
      omega
    · rw [decide_eq_false (by omega)]
      have h5 : K.length = c.applied := by omega
      have h6 : lastTerm K = termAt c.log c.applied := by rw [← htK, ← h5, termAt_self]
      cases hb : x.lm.applied.lt (idOf K) with
      | false => rfl
      | true =>
        rw [idlt_iff, hai, hat] at hb
        have hb' : (termAt c.log c.applied : Int) < lastTerm K ∨ ((termAt c.log c.applied : Int) = lastTerm K ∧ (c.applied : Int) < K.length) := hb
        omega
  have hown : (idOf K).index ≤ x.lm.applied.index → x.lm.getTerm (idOf K).index = (idOf K).term := by
    rw [hai]
    intro hle'
    have hle'' : (K.length : Int) ≤ c.applied := hle'
    have h5 : K.length = c.applied := by omega
    show x.lm.getTerm (K.length : Int) = lastTerm K
    rw [hgt, ← termAt_self, h5, htK]
  have hlt : x.lm.snap.index < (idOf K).index := by rw [hsi]; show (c.snap.length : Int) < K.length; omega
  obtain ⟨L', hi, _⟩ := v.inv.toInv0.setSnapshot (idOf K) hlt
    { term := by show (1 : Int) ≤ (lastTerm K : Int); omega
      base := by show x.lm.first - 1 ≤ (K.length : Int); omega
      order := hord
      own := hown }
  have htake : ∀ j, j ≤ c.applied → c'.log.take j = c.log.take j := by
    intro j hj
    rw [hlog]
    unfold snapMerge
    split
    · rfl
    · obtain ⟨r, hr⟩ := hpre
      rw [← hr, List.take_append_of_le_length (by omega), List.take_take, Nat.min_eq_left hj]
  have hdrain : drainJobs c.log [.snap K] = snapMerge K c.log := rfl
  have hbase0 : Base c'.log c'.snap c.log (finSto x c.log n) := by
    right
    have h1 : ((finSto x c.log n).first - 1).toNat = n := by
      show (x.lm.first - 1).toNat = n
      omega
    rw [h1, htake n (by omega)]
  have happ : (⟨c'.applied, termAt c'.log c'.applied⟩ : Id) = idOf K := by
    rw [ha, hlog, snapMerge_term]
    rfl
  rw [hcq, List.drop_left]
  -- the four cases of set_snapshot
  by_cases h0 : termAt c.log K.length = 0
  · have heq := setSnap_beyond (m := x.lm) (k := idOf K) hlt (by show x.lm.getTerm (K.length : Int) = 0; rw [hgt]; omega)
    have hgtl : c.log.length < K.length := by
      apply Decidable.byContradiction
      intro hc
      have := termAt_pos f.pos (k := K.length) (by omega) (by omega)
      omega
    have hsm : snapMerge K c.log = K := snapMerge_ne (by omega)
    have hpu : pairUp ((x.lm.setSnapshot (idOf K)).queue.drop x.lm.queue.length) [Job.snap K] =
        [(some (.truncPrefix ((K.length : Int) + 1)), [.snap K])] := by
      rw [heq, truncPre_queue]
      show pairUp (List.drop x.lm.queue.length (x.lm.queue ++ _)) _ = _
      rw [List.drop_left]
      rfl
    rw [hpu]
    refine h.push f v _ hi ?_ ?_ ?_ hd ?_ ?_ ?_ (htake _ hsa) ?_ ?_ ?_ ?_ ?_
    · rw [heq]; exact h.err
    · rw [heq]; rfl
    · rw [heq]; rfl
    · rw [hcq]; simp [flat]
    · refine ⟨?_, fun a' ha' => trivial⟩
      refine .pre K.length [.snap K] (by show x.lm.first ≤ _; omega) ?_ ?_ ?_
      · rw [hdrain, hsm]; exact Nat.le_refl _
      · rw [hdrain, hsm, List.drop_length, List.drop_eq_nil_of_le (by omega)]
      · intro hc; omega
    · refine ⟨hbase0, fun a' ha' => ?_⟩
      show Base c'.log c'.snap (drainJobs c.log [.snap K]) a'
      rw [hdrain, hlog]
      exact Or.inr rfl
    · rw [hsn]; omega
    · rw [heq, hsn]; rfl
    · rw [heq, happ]; exact hapl
    · rw [heq, hlog]
      intro j hj hj0
      have hj' : (K.length : Int) = j := hj
      have hj'' : j = K.length := by omega
      subst hj''
      rw [snapMerge_term]
      rfl
    · rw [heq, hsn]
      show (K.length : Int) + 1 - 1 ≤ _
      omega
  · by_cases h1 : termAt c.log K.length = lastTerm K
    · have hsm : snapMerge K c.log = c.log := snapMerge_eq h1
      have hg2 : x.lm.getTerm (idOf K).index = (idOf K).term := by
        show x.lm.getTerm (K.length : Int) = lastTerm K
        rw [hgt, h1]
      have ht0 : (idOf K).term ≠ 0 := by show (lastTerm K : Int) ≠ 0; omega
      have hdr2 : drainJobs c.log [.snap K] = c.log := by rw [hdrain, hsm]
      by_cases h2 : 0 < x.lm.snap.index
      · have heq := setSnap_same (m := x.lm) (k := idOf K) hlt hg2 ht0 h2
        have hpu : pairUp ((x.lm.setSnapshot (idOf K)).queue.drop x.lm.queue.length) [Job.snap K] =
            [(some (.truncPrefix (x.lm.snap.index + 1)), [.snap K])] := by
          rw [heq, truncPre_queue]
          show pairUp (List.drop x.lm.queue.length (x.lm.queue ++ _)) _ = _
          rw [List.drop_left]
          rfl
        rw [hpu]
        refine h.push f v _ hi ?_ ?_ ?_ hd ?_ ?_ ?_ (htake _ hsa) ?_ ?_ ?_ ?_ ?_
        · rw [heq]; exact h.err
        · rw [heq]; rfl
        · rw [heq]; rfl
        · rw [hcq]; simp [flat]
        · refine ⟨?_, fun a' ha' => trivial⟩
          rw [hsi]
          refine .pre c.snap.length [.snap K] (by show x.lm.first ≤ _; omega) ?_ ?_ ?_
          · rw [hdr2]; exact f.sn.length_le
          · rw [hdr2]
          · intro _; exact hdr2
        · refine ⟨hbase0, fun a' ha' => ?_⟩
          show Base c'.log c'.snap (drainJobs c.log [.snap K]) a'
          rw [hdrain, hlog]
          exact Or.inr rfl
        · rw [hsn]; omega
        · rw [heq, hsn]; rfl
        · rw [heq, happ]; exact hapl
        · rw [heq, hlog, hsm]
          intro j hj hj0
          have hj' : x.lm.snap.index = j := hj
          show x.lm.snap.term = _
          rw [h.snap]
          show (lastTerm c.snap : Int) = _
          have : j = c.snap.length := by omega
          rw [this, termAt_pref f.sn]
        · rw [heq, hsn]
          show x.lm.snap.index + 1 - 1 ≤ _
          omega
      · have heq := setSnap_sameFirst (m := x.lm) (k := idOf K) hlt hg2 ht0 h2
        have hpu : pairUp ((x.lm.setSnapshot (idOf K)).queue.drop x.lm.queue.length) [Job.snap K] =
            [(none, [.snap K])] := by
          rw [heq]
          show pairUp (List.drop x.lm.queue.length x.lm.queue) _ = _
          rw [List.drop_length]
          rfl
        rw [hpu]
        refine h.push f v _ hi ?_ ?_ ?_ hd ?_ ?_ ?_ (htake _ hsa) ?_ ?_ ?_ ?_ ?_
        · rw [heq]; exact h.err
        · rw [heq]
        · rw [heq]; simp [lmJobs]
        · rw [hcq]; simp [flat]
        · exact ⟨.noop _ hdr2, fun a' ha' => trivial⟩
        · refine ⟨hbase0, fun a' ha' => ?_⟩
          show Base c'.log c'.snap (drainJobs c.log [.snap K]) a'
          rw [hdrain, hlog]
          exact Or.inr rfl
        · rw [hsn]; omega
        · rw [heq, hsn]
        · rw [heq, happ]; exact hapl
        · rw [heq, hlog, hsm]; exact h.virt
        · rw [heq, hsn]
          show x.lm.first - 1 ≤ _
          omega
    · have hsm : snapMerge K c.log = K := snapMerge_ne h1
      have heq := setSnap_differs (m := x.lm) (k := idOf K) hlt
        (by show x.lm.getTerm (K.length : Int) ≠ 0; rw [hgt]; omega)
        (by show x.lm.getTerm (K.length : Int) ≠ (lastTerm K : Int); rw [hgt]; omega)
      have hpu : pairUp ((x.lm.setSnapshot (idOf K)).queue.drop x.lm.queue.length) [Job.snap K] =
          [(some (.reset ((K.length : Int) + 1)), [.snap K])] := by
        rw [heq]
        show pairUp (List.drop x.lm.queue.length (x.lm.queue ++ _)) _ = _
        rw [List.drop_left]
        rfl
      rw [hpu]
      refine h.push f v _ hi ?_ ?_ ?_ hd ?_ ?_ ?_ (htake _ hsa) ?_ ?_ ?_ ?_ ?_
      · rw [heq]; exact h.err
      · rw [heq]; rfl
      · rw [heq]; rfl
      · rw [hcq]; simp [flat]
      · refine ⟨.reset K.length [.snap K] (by show x.lm.first ≤ _; omega) ?_, fun a' ha' => trivial⟩
        rw [hdrain, hsm]
      · refine ⟨hbase0, fun a' ha' => ?_⟩
        show Base c'.log c'.snap (drainJobs c.log [.snap K]) a'
        rw [hdrain, hlog]
        exact Or.inr rfl
      · rw [hsn]; omega
      · rw [heq, hsn]; rfl
      · rw [heq, happ]; exact hapl
      · rw [heq, hlog]
        intro j hj hj0
        have hj' : (K.length : Int) = j := hj
        have hj'' : j = K.length := by omega
        subst hj''
        rw [snapMerge_term]
        rfl
      · rw [heq, hsn]
        show (K.length : Int) + 1 - 1 ≤ _
        omega

/-- A process starts: `d` is on disk, `P` is the newest snapshot. -/
theorem boot_live {c' : Srv N D} {a : Sto (Payload N D)} {d P : Log N D} {n : Nat} (hr : StoRel d a n)
    (hp : ∀ e ∈ d, 1 ≤ e.term) (hP : P ≠ [] → 1 ≤ lastTerm P) (hn : n ≤ P.length)
    (hb : n < P.length ∨ d.take n = P.take n)
    (hlog : c'.log = snapMerge P d) (hd : c'.disk = d) (hcq : c'.queue = loadJobs P) (hsn : c'.snap = P)
    (ha : c'.applied = P.length) :
    Live c' ⟨bootLm a P, pairUp (bootLm a P).queue c'.queue⟩ := by
  have hsto : LogMgr.StoOk a := StoR.ok ⟨n, hr⟩
  have hpe : ∀ e ∈ a.ents, 1 ≤ e.term := by
    rw [hr.ents]
    exact ents_pos (fun e he => hp e (List.mem_of_mem_drop he))
  have haf := hr.first
  have hle := hr.le
  have hlast := hr.last
  have hbase0 : Base c'.log c'.snap d a := by
    have h1 : (a.first - 1).toNat = n := by omega
    rcases hb with h2 | h2
    · left; rw [hsn]; omega
    · right
      rw [h1, hlog]
      unfold snapMerge
      split
      · rfl
      · exact h2
  by_cases hP0 : P = []
  · subst hP0
    have hn0 : n = 0 := by simpa using hn
    have hbl : bootLm a ([] : Log N D) = LogMgr.init a := rfl
    have hcq' : c'.queue = [] := hcq
    have hlog' : c'.log = d := by
      rw [hlog]
      exact snapMerge_eq rfl
    rw [hbl, hcq']
    refine ⟨rfl, ⟨_, LogMgr.init_inv hsto hpe (by omega)⟩, hcq', rfl, by rw [hd]; exact ⟨n, hr⟩, trivial, by rw [hsn]; rfl, ?_, ?_, ?_, ?_⟩
    · rw [ha]; rfl
    · intro k hk hk0
      have : (0 : Int) = k := hk
      omega
    · show a.first - 1 ≤ _; omega
    · show Base _ _ _ _
      rw [hd]
      exact hbase0
  · have hPl : 0 < P.length := List.length_pos_iff.mpr hP0
    have hPt := hP hP0
    have hbl : bootLm a P = (LogMgr.init a).setSnapshot (idOf P) := by
      unfold bootLm
      rw [if_neg (by simpa using hP0)]
    have hcq' : c'.queue = [.snap P] := by rw [hcq]; unfold loadJobs; rw [if_neg hP0]
    rw [hbl, hcq']
    have hlt : (LogMgr.init a).snap.index < (idOf P).index := by show (0 : Int) < P.length; omega
    have happl : (LogMgr.init a).applied.lt (idOf P) = true := by
      rw [idlt_iff]
      show (0 : Int) < lastTerm P ∨ _
      left; omega
    obtain ⟨L', hi, _⟩ := (LogMgr.init_inv0 hsto hpe).setSnapshot (idOf P) hlt
      { term := by show (1 : Int) ≤ (lastTerm P : Int); omega
        base := by show a.first - 1 ≤ (P.length : Int); omega
        order := by
          rw [happl]
          symm
          rw [decide_eq_true_eq]
          exact hlt
        own := by
          intro hc
          have : (P.length : Int) ≤ 0 := hc
          omega }
    have hgt : (LogMgr.init a).getTerm (P.length : Int) = if n < P.length then (termAt d P.length : Int) else 0 := by
      have h1 := (LogMgr.init_inv0 hsto hpe).getTerm (P.length : Int)
      obtain ⟨j, hj⟩ : ∃ j, P.length = j + 1 := ⟨P.length - 1, by omega⟩
      have h2 : (LogMgr.logOf (LogMgr.init a) a.ents).at (P.length : Int) =
          if n ≤ j then (d[j]?).map (fun e => ⟨(j : Int) + 1, e.term, e.payload⟩) else none := by
        rw [hj]
        exact hr.at j
      rw [h2] at h1
      by_cases hnj : n ≤ j
      · rw [if_pos hnj] at h1
        rw [if_pos (by omega)]
        unfold termAt
        rw [if_neg (by omega), show P.length - 1 = j by omega]
        cases hdj : d[j]? with
        | some e => rw [hdj] at h1; exact h1
        | none =>
          rw [hdj] at h1
          dsimp only [Option.map_none] at h1
          rw [if_neg (by omega)] at h1
          rw [h1, if_neg (by show ¬ (P.length : Int) = 0; omega), if_neg (by show ¬ (P.length : Int) = 0; omega)]
          rfl
      · rw [if_neg hnj] at h1
        rw [if_neg (by omega)]
        dsimp only at h1
        rw [h1, if_neg (by omega), if_neg (by show ¬ (P.length : Int) = 0; omega), if_neg (by show ¬ (P.length : Int) = 0; omega)]
    have hdrain : drainJobs d [.snap P] = snapMerge P d := rfl
    have happ : (⟨c'.applied, termAt c'.log c'.applied⟩ : Id) = idOf P := by
      rw [ha, hlog, snapMerge_term]
      rfl
    have hzb : ∀ a', Base c'.log c'.snap (drainJobs d [.snap P]) a' := by
      intro a'
      rw [hdrain, hlog]
      exact Or.inr rfl
    have hidx : (idOf P).index = P.length := rfl
    by_cases h0 : (LogMgr.init a).getTerm (P.length : Int) = 0
    · have heq := setSnap_beyond (m := LogMgr.init a) (k := idOf P) hlt h0
      -- the storage ends before, or begins behind, the snapshot
      have hmem : (d.length < P.length ∧ snapMerge P d = P) ∨ (P.length = n ∧ snapMerge P d = d) := by
        by_cases hnp : n < P.length
        · left
          rw [hgt, if_pos hnp] at h0
          have hlt2 : d.length < P.length := by
            apply Decidable.byContradiction
            intro hc
            have := termAt_pos hp (k := P.length) hPl (by omega)
            omega
          exact ⟨hlt2, snapMerge_ne (by omega)⟩
        · right
          have hnp' : P.length = n := by omega
          refine ⟨hnp', snapMerge_eq ?_⟩
          rcases hb with h2 | h2
          · omega
          · rw [hnp', termAt_take hle, h2, ← hnp', List.take_length]
      have hpu : pairUp ((LogMgr.init a).setSnapshot (idOf P)).queue [Job.snap P] =
          [(some (.truncPrefix ((P.length : Int) + 1)), [.snap P])] := by
        rw [heq]
        rfl
      rw [hpu]
      refine ⟨by rw [heq]; rfl, ⟨L', hi⟩, by rw [hcq']; simp [flat], by rw [heq]; rfl, ?_, ?_, by rw [heq, hsn]; rfl, ?_, ?_, ?_, ?_⟩
      · rw [heq, hd]; exact ⟨n, hr⟩
      · rw [heq, hd]
        refine ⟨?_, fun a' ha' => trivial⟩
        show Block d a _
        refine .pre P.length [.snap P] (by omega) ?_ ?_ ?_
        · rw [hdrain]
          rcases hmem with ⟨h1, h2⟩ | ⟨h1, h2⟩
          · rw [h2]; exact Nat.le_refl _
          · rw [h2]; omega
        · rw [hdrain]
          rcases hmem with ⟨h1, h2⟩ | ⟨h1, h2⟩
          · rw [h2, List.drop_length, List.drop_eq_nil_of_le (by omega)]
          · rw [h2]
        · intro hc
          rw [hdrain]
          rcases hmem with ⟨h1, h2⟩ | ⟨h1, h2⟩
          · omega
          · exact h2
      · rw [heq, happ]
        show (if (LogMgr.init a).applied.lt (idOf P) then _ else _) = _
        rw [happl]
        rfl
      · rw [heq, hlog]
        intro j hj hj0
        have hj' : (P.length : Int) = j := hj
        have hj'' : j = P.length := by omega
        subst hj''
        rw [snapMerge_term]
        rfl
      · rw [heq, hsn]
        show (P.length : Int) + 1 - 1 ≤ _
        omega
      · rw [heq, hd]
        exact ⟨hbase0, fun a' ha' => hzb a'⟩
    · have hnp : n < P.length := by
        apply Decidable.byContradiction
        intro hc
        rw [hgt, if_neg hc] at h0
        exact h0 rfl
      rw [if_pos hnp] at hgt
      by_cases h1 : termAt d P.length = lastTerm P
      · have hsm : snapMerge P d = d := snapMerge_eq h1
        have heq := setSnap_sameFirst (m := LogMgr.init a) (k := idOf P) hlt
          (by show (LogMgr.init a).getTerm (P.length : Int) = lastTerm P; rw [hgt, h1])
          (by show (lastTerm P : Int) ≠ 0; omega) (by show ¬ (0 : Int) < 0; omega)
        have hpu : pairUp ((LogMgr.init a).setSnapshot (idOf P)).queue [Job.snap P] = [(none, [.snap P])] := by
          rw [heq]
          rfl
        rw [hpu]
        refine ⟨by rw [heq]; rfl, ⟨L', hi⟩, by rw [hcq']; simp [flat], by rw [heq]; rfl, ?_, ?_, by rw [heq, hsn], ?_, ?_, ?_, ?_⟩
        · rw [heq, hd]; exact ⟨n, hr⟩
        · rw [heq, hd]
          exact ⟨.noop _ (by rw [hdrain, hsm]), fun a' ha' => trivial⟩
        · rw [heq, happ]
          show (if (LogMgr.init a).applied.lt (idOf P) then _ else _) = _
          rw [happl]
          rfl
        · rw [heq]
          intro j hj hj0
          have hj' : (0 : Int) = j := hj
          omega
        · rw [heq, hsn]
          show a.first - 1 ≤ _
          omega
        · rw [heq, hd]
          exact ⟨hbase0, fun a' ha' => hzb a'⟩
      · have hsm : snapMerge P d = P := snapMerge_ne h1
        have heq := setSnap_differs (m := LogMgr.init a) (k := idOf P) hlt h0
          (by show (LogMgr.init a).getTerm (P.length : Int) ≠ (lastTerm P : Int); rw [hgt]; omega)
        have hpu : pairUp ((LogMgr.init a).setSnapshot (idOf P)).queue [Job.snap P] =
            [(some (.reset ((P.length : Int) + 1)), [.snap P])] := by
          rw [heq]
          rfl
        rw [hpu]
        refine ⟨by rw [heq]; rfl, ⟨L', hi⟩, by rw [hcq']; simp [flat], by rw [heq]; rfl, ?_, ?_, by rw [heq, hsn]; rfl, ?_, ?_, ?_, ?_⟩
        · rw [heq, hd]; exact ⟨n, hr⟩
        · rw [heq, hd]
          refine ⟨.reset P.length [.snap P] (by show a.first ≤ _; omega) ?_, fun a' ha' => trivial⟩
          rw [hdrain, hsm]
        · rw [heq, happ]
          show (if (LogMgr.init a).applied.lt (idOf P) then _ else _) = _
          rw [happl]
          rfl
        · rw [heq, hlog]
          intro j hj hj0
          have hj' : (P.length : Int) = j := hj
          have hj'' : j = P.length := by omega
          subst hj''
          rw [snapMerge_term]
          rfl
        · rw [heq, hsn]
          show (P.length : Int) + 1 - 1 ≤ _
          omega
        · rw [heq, hd]
          exact ⟨hbase0, fun a' ha' => hzb a'⟩

end Braft.Cl
