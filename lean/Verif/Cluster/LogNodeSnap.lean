import Verif.Cluster.LogNodeSteps
/-
Every step of the joint model keeps the relation between a server's list and its LogManager: snapshots and
restarts.
-/
set_option linter.unusedVariables false
set_option linter.unusedSimpArgs false
set_option linter.unusedSectionVars false

namespace Braft.Cl
open Braft.Raft
open Braft.MemLog (Ent Consec)
open Braft.LogMgr (Sto Id number)
variable {N D : Type} [DecidableEq N] [DecidableEq D]

theorem termAt_self {K : Log N D} : termAt K K.length = lastTerm K := by
  have := termAt_pref (List.prefix_refl K)
  exact this

theorem idlt_iff {a b : Id} : a.lt b = true ↔ a.term < b.term ∨ (a.term = b.term ∧ a.index < b.index) := by
  unfold Id.lt
  split <;> simp only [decide_eq_true_eq] <;> omega

theorem setSnap_beyond {m : LM N D} {k : Id} (h1 : m.snap.index < k.index) (h2 : m.getTerm k.index = 0) :
    m.setSnapshot k = ({ m with snap := k, applied := (if m.applied.lt k then k else m.applied), virt := k } : LM N D).truncatePrefix (k.index + 1) := by
  unfold LogMgr.State.setSnapshot
  rw [if_neg (by omega)]
  dsimp only
  rw [if_pos h2]

theorem setSnap_same {m : LM N D} {k : Id} (h1 : m.snap.index < k.index) (h2 : m.getTerm k.index = k.term)
    (h3 : k.term ≠ 0) (h4 : 0 < m.snap.index) :
    m.setSnapshot k = ({ m with snap := k, applied := (if m.applied.lt k then k else m.applied), virt := m.snap } : LM N D).truncatePrefix (m.snap.index + 1) := by
  unfold LogMgr.State.setSnapshot
  rw [if_neg (by omega)]
  dsimp only
  rw [if_neg (by rw [h2]; exact h3), if_pos h2, if_pos h4]

theorem setSnap_sameFirst {m : LM N D} {k : Id} (h1 : m.snap.index < k.index) (h2 : m.getTerm k.index = k.term)
    (h3 : k.term ≠ 0) (h4 : ¬ 0 < m.snap.index) :
    m.setSnapshot k = { m with snap := k, applied := (if m.applied.lt k then k else m.applied) } := by
  unfold LogMgr.State.setSnapshot
  rw [if_neg (by omega)]
  dsimp only
  rw [if_neg (by rw [h2]; exact h3), if_pos h2, if_neg h4]

theorem setSnap_differs {m : LM N D} {k : Id} (h1 : m.snap.index < k.index) (h2 : m.getTerm k.index ≠ 0)
    (h3 : m.getTerm k.index ≠ k.term) :
    m.setSnapshot k = ({ m with snap := k, applied := (if m.applied.lt k then k else m.applied), virt := k } : LM N D).resetLog (k.index + 1) := by
  unfold LogMgr.State.setSnapshot
  rw [if_neg (by omega)]
  dsimp only
  rw [if_neg h2, if_neg h3]

theorem truncPre_queue (m : LM N D) (k : Int) : (m.truncatePrefix k).queue = m.queue ++ [.truncPrefix k] := rfl

theorem pairUp_one (j : LJob N D) (cs : List (Job N D)) : pairUp [j] cs = [(some j, cs)] := rfl

theorem pairUp_nil_nil : pairUp ([] : List (LJob N D)) ([] : List (Job N D)) = [] := rfl

/-- A snapshot of applied entries was saved. -/
theorem Live.save {c c' : Srv N D} {x : LNode N D} (h : Live c x) (f : SF c) (k : Nat) (hk1 : c.psnap.length < k)
    (hk2 : k ≤ c.applied) (hlog : c'.log = c.log) (hd : c'.disk = c.disk) (hcq : c'.queue = c.queue)
    (hsn : c'.snap = c.sm.take k) (ha : c'.applied = c.applied) :
    Live c' ⟨x.lm.setSnapshot (idOf (c.sm.take k)), x.z ++
      pairUp ((x.lm.setSnapshot (idOf (c.sm.take k))).queue.drop x.lm.queue.length) (c'.queue.drop c.queue.length)⟩ := by
  obtain ⟨n, v⟩ := h.view f
  have hap := f.ap
  have hsp := f.sp.length_le
  have hfst := h.fst
  have hvf := v.first
  have hsm : c.sm.take k = c.log.take k := by rw [f.sm, List.take_take, Nat.min_eq_left hk2]
  have hlen : (c.log.take k).length = k := by rw [List.length_take]; omega
  have hid : idOf (c.sm.take k) = ⟨k, termAt c.log k⟩ := by
    rw [hsm]
    unfold idOf
    rw [hlen, ← termAt_take (by omega)]
  rw [hid]
  have hgt : x.lm.getTerm (k : Int) = termAt c.log k := v.term (by omega)
  have hpos : 1 ≤ termAt c.log k := by
    unfold termAt
    rw [if_neg (by omega), List.getElem?_eq_getElem (by omega)]
    exact f.pos _ (List.getElem_mem _)
  have hmono := f.mono k c.applied hk2 hap
  have hsi : x.lm.snap.index = c.snap.length := by rw [h.snap]; rfl
  have hai : x.lm.applied.index = c.applied := by rw [h.app]
  have hat : x.lm.applied.term = termAt c.log c.applied := by rw [h.app]
  have hnl : x.lm.applied.lt ⟨k, termAt c.log k⟩ = false := by
    cases hb : x.lm.applied.lt ⟨k, termAt c.log k⟩ with
    | false => rfl
    | true =>
      rw [idlt_iff] at hb
      rw [hai, hat] at hb
      dsimp only at hb
      omega
  obtain ⟨L', hi, _⟩ := v.inv.toInv0.setSnapshot ⟨k, termAt c.log k⟩ (by rw [hsi]; show (c.snap.length : Int) < k; omega)
    { term := by show (1 : Int) ≤ (termAt c.log k : Int); omega
      base := by show x.lm.first - 1 ≤ (k : Int); omega
      order := by
        rw [hnl, hai]
        symm
        rw [decide_eq_false_iff_not]
        show ¬ (c.applied : Int) < k
        omega
      own := fun _ => hgt }
  rw [hcq, List.drop_length]
  by_cases h0 : 0 < x.lm.snap.index
  · have heq := setSnap_same (m := x.lm) (k := ⟨k, termAt c.log k⟩) (by rw [hsi]; show (c.snap.length : Int) < k; omega) hgt
      (by show (termAt c.log k : Int) ≠ 0; omega) h0
    have hpu : pairUp ((x.lm.setSnapshot ⟨k, termAt c.log k⟩).queue.drop x.lm.queue.length) ([] : List (Job N D)) =
        [(some (.truncPrefix (x.lm.snap.index + 1)), [])] := by
      rw [heq, truncPre_queue]
      show pairUp (List.drop x.lm.queue.length (x.lm.queue ++ _)) _ = _
      rw [List.drop_left]
      rfl
    rw [hpu]
    refine h.push f v _ hi ?_ ?_ ?_ hd ?_ ?_ ?_ ?_ ?_ ?_ ?_ ?_ ?_
    · rw [heq]; exact h.err
    · rw [heq]; rfl
    · rw [heq]; rfl
    · rw [hcq]; simp [flat]
    · refine ⟨?_, fun a' ha' => trivial⟩
      rw [hsi]
      exact .pre c.snap.length [] (by show x.lm.first ≤ _; omega) (by show c.snap.length ≤ c.log.length; exact f.sn.length_le) rfl (fun _ => rfl)
    · refine ⟨?_, fun a' ha' => ?_⟩
      · rw [hlog]
        exact Or.inr rfl
      · show Base c'.log c'.snap c.log a'
        rw [hlog]
        exact Or.inr rfl
    · rw [hlog]
    · rw [hsn, hsm, hlen]; omega
    · rw [heq, hsn, hid]; rfl
    · rw [heq, ha, hlog]
      show (if x.lm.applied.lt _ then _ else x.lm.applied) = _
      rw [hnl]
      exact h.app
    · rw [heq, hlog]
      intro j hj hj0
      have hj' : x.lm.snap.index = j := hj
      show x.lm.snap.term = _
      rw [h.snap]
      show (lastTerm c.snap : Int) = _
      have : j = c.snap.length := by omega
      rw [this, termAt_pref f.sn]
    · rw [heq, hsn, hsm, hlen]
      show x.lm.snap.index + 1 - 1 ≤ _
      omega
  · have heq := setSnap_sameFirst (m := x.lm) (k := ⟨k, termAt c.log k⟩) (by rw [hsi]; show (c.snap.length : Int) < k; omega) hgt
      (by show (termAt c.log k : Int) ≠ 0; omega) h0
    have hpu : pairUp ((x.lm.setSnapshot ⟨k, termAt c.log k⟩).queue.drop x.lm.queue.length) ([] : List (Job N D)) = [] := by
      rw [heq]
      show pairUp (List.drop x.lm.queue.length x.lm.queue) _ = _
      rw [List.drop_length]
      rfl
    rw [hpu]
    refine h.push f v _ hi ?_ ?_ ?_ hd ?_ trivial ?_ ?_ ?_ ?_ ?_ ?_ ?_
    · rw [heq]; exact h.err
    · rw [heq]
    · rw [heq]; simp [lmJobs]
    · rw [hcq]; simp [flat]
    · show Base _ _ _ _
      rw [hlog]
      exact Or.inr rfl
    · rw [hlog]
    · rw [hsn, hsm, hlen]; omega
    · rw [heq, hsn, hid]
    · rw [heq, ha, hlog]
      show (if x.lm.applied.lt _ then _ else x.lm.applied) = _
      rw [hnl]
      exact h.app
    · rw [heq, hlog]; exact h.virt
    · rw [heq, hsn, hsm, hlen]
      show x.lm.first - 1 ≤ _
      omega

/-- clear_bufferred_logs. -/
theorem Live.buffered {c : Srv N D} {x : LNode N D} (h : Live c x) (f : SF c) :
    Live c ⟨x.lm.clearBuffered, x.z ++ pairUp (x.lm.clearBuffered.queue.drop x.lm.queue.length) []⟩ := by
  obtain ⟨n, v⟩ := h.view f
  have hfst := h.fst
  have hsi : x.lm.snap.index = c.snap.length := by rw [h.snap]; rfl
  have hi := v.inv.clearBuffered
  by_cases h0 : x.lm.snap.index ≠ 0
  · have heq : x.lm.clearBuffered = ({ x.lm with virt := x.lm.snap } : LM N D).truncatePrefix (x.lm.snap.index + 1) := by
      unfold LogMgr.State.clearBuffered
      rw [if_pos h0]
    have hpu : pairUp (x.lm.clearBuffered.queue.drop x.lm.queue.length) ([] : List (Job N D)) =
        [(some (.truncPrefix (x.lm.snap.index + 1)), [])] := by
      rw [heq, truncPre_queue]
      show pairUp (List.drop x.lm.queue.length (x.lm.queue ++ _)) _ = _
      rw [List.drop_left]
      rfl
    rw [hpu]
    refine h.push f v _ hi ?_ ?_ ?_ rfl ?_ ?_ ?_ rfl (Nat.le_refl _) ?_ ?_ ?_ ?_
    · rw [heq]; exact h.err
    · rw [heq]; rfl
    · rw [heq]; rfl
    · simp [flat]
    · refine ⟨?_, fun a' ha' => trivial⟩
      rw [hsi]
      exact .pre c.snap.length [] (by show x.lm.first ≤ _; omega) (by show c.snap.length ≤ c.log.length; exact f.sn.length_le) rfl (fun _ => rfl)
    · exact ⟨Or.inr rfl, fun a' ha' => Or.inr rfl⟩
    · rw [heq]; exact h.snap
    · rw [heq]; exact h.app
    · rw [heq]
      intro j hj hj0
      have hj' : x.lm.snap.index = j := hj
      show x.lm.snap.term = _
      rw [h.snap]
      show (lastTerm c.snap : Int) = _
      have : j = c.snap.length := by omega
      rw [this, termAt_pref f.sn]
    · rw [heq]
      show x.lm.snap.index + 1 - 1 ≤ _
      omega
  · have heq : x.lm.clearBuffered = x.lm := by
      unfold LogMgr.State.clearBuffered
      rw [if_neg h0]
    rw [heq, List.drop_length, pairUp_nil_nil, List.append_nil]
    exact h

end Braft.Cl
