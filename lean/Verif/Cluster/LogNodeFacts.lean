import Verif.Cluster.SimD
import Verif.Cluster.LogNode
/-
What the simulation (Cluster/Sim*.lean) and the invariant of the cluster model (Raft/Inv.lean) say of the log,
the snapshots and the applied index of a server.
-/
set_option linter.unusedVariables false
set_option linter.unusedSimpArgs false
set_option linter.unusedSectionVars false

namespace Braft.Cl
open Braft.Raft
variable {N D : Type} [DecidableEq N] [DecidableEq D] {c0 : Conf N}

theorem good_pos {g : Glob N D} (hg : GBase c0 g) {W : Log N D} (h : Good g W) : ∀ e ∈ W, 1 ≤ e.term := by
  intro e he
  obtain ⟨k, hk, hke⟩ := List.getElem_of_mem he
  have h1 : W.take (k + 1) = W.take k ++ [e] := by rw [← hke]; exact List.take_succ_eq_append_getElem hk
  have h2 := created_pos hg (h (W.take (k + 1)) (by rw [h1]; simp) (List.take_prefix _ _))
  rw [h1, lastTerm_concat] at h2
  omega

theorem good_mono {g : Glob N D} (hg : GBase c0 g) {W : Log N D} (h : Good g W) {i j : Nat} (hij : i ≤ j)
    (hj : j ≤ W.length) : termAt W i ≤ termAt W j := by
  rw [termAt_take (by omega), termAt_take hj]
  by_cases h0 : W.take j = []
  · have : W.take i = [] := by
      have := congrArg List.length h0
      rw [List.length_take] at this
      apply List.length_eq_zero_iff.mp
      rw [List.length_take]
      simp only [List.length_nil] at this
      omega
    rw [this, h0]
    exact Nat.le_refl _
  · exact hg.mono _ (h _ h0 (List.take_prefix _ _)) _ (List.take_prefix_take_left hij)

theorem good_lastTerm {g : Glob N D} (hg : GBase c0 g) {W : Log N D} (h : Good g W) (hne : W ≠ []) : 1 ≤ lastTerm W :=
  created_pos hg (h W hne (List.prefix_refl _))

/-- Facts about a server. -/
structure SF (c : Srv N D) : Prop where
  mem : drainJobs c.disk c.queue = c.log
  pos : ∀ e ∈ c.log, 1 ≤ e.term
  dpos : ∀ e ∈ c.disk, 1 ≤ e.term
  mono : ∀ i j, i ≤ j → j ≤ c.log.length → termAt c.log i ≤ termAt c.log j
  sn : c.snap <+: c.log
  sp : c.snap <+: c.psnap
  spos : c.snap ≠ [] → 1 ≤ lastTerm c.snap
  ppos : c.psnap ≠ [] → 1 ≤ lastTerm c.psnap
  sa : c.snap.length ≤ c.applied
  ap : c.applied ≤ c.log.length
  sm : c.sm = c.log.take c.applied
  cl : c.bb.lastCommitted ≤ c.log.length
  dl : ∀ K, c.dl = some K → c.snap.length < K.length ∧ K ≠ [] ∧
    (K <+: c.log.take c.applied ∨ c.log.take c.applied <+: K)

theorem sf_of {g : Glob N D} {ev : List (Ev N D)} {i : N} {c : Srv N D} {n : NodeSt N D} (hg : GBase c0 g)
    (h : NodeInv c0 g i n) (r : NR c0 g ev i c n) : SF c where
  mem := by rw [drain_rel r.queue, ← r.disk, ← h.mem, r.log]
  pos := by rw [← r.log]; exact good_pos hg h.glog.1
  dpos := by rw [← r.disk]; exact good_pos hg h.gd
  mono := by rw [← r.log]; exact fun i j h1 h2 => good_mono hg h.glog.1 h1 h2
  sn := by rw [← r.log, ← r.snap]; exact h.sn
  sp := by rw [← r.psnap, ← r.snap]; exact h.sp
  spos := by
    rw [← r.snap]
    exact good_lastTerm hg (h.glog.pref hg h.sn).1
  ppos := by
    rw [← r.psnap]
    exact good_lastTerm hg (h.cs.good hg).1
  sa := by rw [← r.snap, ← r.applied]; exact h.sa
  ap := by rw [← r.log, ← r.applied]; exact h.ap
  sm := by rw [← r.log, ← r.applied, ← r.sm]; exact h.smi
  cl := by rw [← r.log, ← r.commit]; exact h.cl
  dl := by
    intro K hK
    rw [← r.dl] at hK
    obtain ⟨h1, h2⟩ := h.dlc K hK
    rw [← r.log, ← r.applied, ← r.snap]
    refine ⟨h2, ?_, hg.comm_total h1 h.ac⟩
    intro h0; rw [h0] at h2; simp at h2

/-- Facts about AppendEntries requests. -/
def MF (ms : List (CMsg N D)) : Prop :=
  ∀ t l to prev pt es cm, CMsg.aeReq t l to prev pt es cm ∈ ms →
    (∀ e ∈ es, 1 ≤ e.term) ∧ (0 < prev → 1 ≤ pt) ∧ (prev = 0 → pt = 0)

theorem facts_reach {p : CParams} (hp : COk p) {s : CSys N D} (h : CReachable p c0 s) :
    (∀ i, SF (s.node i)) ∧ MF s.msgs := by
  obtain ⟨a, ha, hr⟩ := sim_reach hp h
  have hi := inv_reachable ha
  have hg := hi.g.toGBase
  refine ⟨fun i => sf_of hg (hi.n i) (hr.node i), ?_⟩
  intro t l to prev pt es cm hm
  obtain ⟨L, h1, h2, P, h3, h4, h5, _⟩ := hg.ae _ _ _ _ _ (hr.msg _ hm).1
  have hgood := good_of_created hg h1
  have hpe := hgood.pref hg h5
  have hP := hgood.pref hg ((List.prefix_append P es).trans h5)
  refine ⟨fun e he => good_pos hg hpe.1 e (List.mem_append_right _ he), ?_, ?_⟩
  · intro h0
    rw [← h4]
    exact good_lastTerm hg hP.1 (by intro hn; rw [hn] at h3; simp at h3; omega)
  · intro h0
    rw [← h4, List.length_eq_zero_iff.mp (h3.trans h0)]
    rfl

end Braft.Cl
