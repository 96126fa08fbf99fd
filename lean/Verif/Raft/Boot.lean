import Verif.Raft.StepsD
/-
A group whose members were bootstrapped (NodeImpl::bootstrap, node.cpp:393-497) before they were started: the cluster
model of Verif/Raft/Model.lean with another first state. What one call of bootstrap leaves behind is in
Verif/Node/Bootstrap.lean.
-/
set_option linter.unusedVariables false
set_option linter.unusedSimpArgs false
set_option linter.unusedSectionVars false

namespace Braft.Raft
variable {N D : Type} [DecidableEq N] [DecidableEq D]

/-- How far the bootstrap of a node got before the process ended (node.cpp:393-497): nothing is stored; the snapshot is
(`do_snapshot`, 456-469); the log was told to begin behind it (log_manager.cpp:622-680); the configuration is stored
(478-490). A node that did not store the configuration has none in the code, unless it is started with an initial one; in the
model it has `c`, so that it may do more. -/
inductive Stage | none | saved | cut | full
deriving DecidableEq, Repr

/-- The log of a bootstrapped node: what the snapshot stands for, and the configuration, in term 1 (node.cpp:417, 474-477). -/
def bootLog (K : Log N D) (c : Conf N) : Log N D := K ++ [⟨1, .conf c⟩]

/-- What LogStorage holds. -/
def Stage.disk (K : Log N D) (c : Conf N) : Stage → Log N D
  | .none => []
  | .saved => []
  | .cut => K
  | .full => bootLog K c

/-- The snapshot. -/
def Stage.psnap (K : Log N D) : Stage → Log N D
  | .none => []
  | _ => K

/-- The node as stored; the term is 1 and there is no vote, as without a bootstrap (raft_meta.cpp:433-460). -/
def storedNode (K : Log N D) (c : Conf N) (b : Stage) : NodeSt N D :=
  { freshNode c with log := b.disk K c, disk := b.disk K c, psnap := b.psnap K }

/-- The node after its first start (NodeImpl::init, node.cpp:499-660). -/
def bootNode (K : Log N D) (c : Conf N) (b : Stage) : NodeSt N D := restart (storedNode K c b)

/-- The history: the bootstrap counts as an election in term 1, won by `w` with the votes of the members, whose entries
the bootstrapped nodes acknowledged. Nobody else can take part in term 1: elections begin with term 2. -/
def bootGlob (K : Log N D) (c : Conf N) (B : N → Stage) (w : N) (hist : N → List (Log N D)) : Glob N D :=
  { msgs := [], hist := hist
    created := (List.range (bootLog K c).length).map (fun k => (bootLog K c).take (k + 1))
    elections := [⟨1, w, []⟩]
    votes := c.peers.map (fun v => ⟨1, v, w, 0⟩)
    acks := (c.peers.filter (fun v => decide (B v = .full))).map (fun v => ⟨1, v, bootLog K c⟩)
    commits := [bootLog K c], applies := [] }

/-- The group when its members have been started. -/
def bootSys (K : Log N D) (c : Conf N) (B : N → Stage) (w : N) : Sys N D :=
  { node := fun i => bootNode K c (B i)
    g := bootGlob K c B w (fun i => [(B i).psnap K, (B i).disk K c]) }

/-- The bootstraps were meant for each other: the same data and the same stable configuration (without a last_log_index:
no data), whose members were bootstrapped, as far as a majority of them needs. -/
structure BootOk (K : Log N D) (c : Conf N) (B : N → Stage) (w : N) : Prop where
  data : ∀ e ∈ K, e.term = 1 ∧ e.conf? = none
  stable : c.old = []
  quorum : c.Quorum (fun v => decide (B v = .full))
  mem : w ∈ c.peers

section
variable {K : Log N D} {c : Conf N} {B : N → Stage} {w : N} {hist : N → List (Log N D)}

theorem bootLog_terms (h : ∀ e ∈ K, e.term = 1 ∧ e.conf? = none) : ∀ e ∈ bootLog K c, e.term = 1 := by
  intro e he
  rcases List.mem_append.mp he with he | he
  · exact (h e he).1
  · rw [List.mem_singleton.mp he]

theorem mem_created {X : Log N D} :
    X ∈ (bootGlob K c B w hist).created ↔ X ≠ [] ∧ X <+: bootLog K c := by
  simp only [bootGlob, List.mem_map, List.mem_range]
  constructor
  · rintro ⟨k, hk, rfl⟩
    refine ⟨?_, List.take_prefix _ _⟩
    intro h0
    have := congrArg List.length h0
    simp only [List.length_take, List.length_nil] at this
    omega
  · rintro ⟨h1, h2⟩
    have hl := h2.length_le
    have h0 : 0 < X.length := List.length_pos_iff.mpr h1
    refine ⟨X.length - 1, by omega, ?_⟩
    rw [show X.length - 1 + 1 = X.length by omega]
    exact (prefix_take h2).symm

theorem lastTerm_of_all {X : Log N D} (hne : X ≠ []) (h : ∀ e ∈ X, e.term = 1) : lastTerm X = 1 := by
  rcases snoc_cases X with h' | ⟨l, e, rfl⟩
  · exact absurd h' hne
  · rw [lastTerm_concat]; exact h e (by simp)

theorem pref_terms (h : ∀ e ∈ K, e.term = 1 ∧ e.conf? = none) {X : Log N D} (hX : X <+: bootLog K c) : ∀ e ∈ X, e.term = 1 :=
  fun e he => bootLog_terms h e (hX.subset he)

theorem pref_lastTerm (h : ∀ e ∈ K, e.term = 1 ∧ e.conf? = none) {X : Log N D} (hne : X ≠ []) (hX : X <+: bootLog K c) :
    lastTerm X = 1 := lastTerm_of_all hne (pref_terms h hX)

theorem confOf_plain {X : Log N D} (h : ∀ e ∈ X, e.conf? = none ∨ e.conf? = some c) : confOf c X = c := by
  unfold confOf
  induction X with
  | nil => rfl
  | cons e X ih =>
    rw [List.foldl_cons]
    have he : (e.conf?).getD c = c := by rcases h e (by simp) with h' | h' <;> rw [h'] <;> rfl
    rw [he]
    exact ih (fun e he => h e (by simp [he]))

theorem confOf_boot (h : ∀ e ∈ K, e.term = 1 ∧ e.conf? = none) {X : Log N D} (hX : X <+: bootLog K c) : confOf c X = c := by
  apply confOf_plain
  intro e he
  rcases List.mem_append.mp (hX.subset he) with he | he
  · exact Or.inl (h e he).2
  · rw [List.mem_singleton.mp he]; exact Or.inr rfl

theorem good_boot {X : Log N D} (hX : X <+: bootLog K c) : Good (bootGlob K c B w hist) X :=
  fun Y h1 h2 => mem_created.mpr ⟨h1, h2.trans hX⟩

theorem direct_boot (h : BootOk K c B w) : Direct (facts (bootGlob K c B w hist)) c (bootLog K c) := by
  refine ⟨mem_created.mpr ⟨by simp [bootLog], List.prefix_refl _⟩, fun v => decide (v ∈ c.peers ∧ B v = .full), ?_, ?_⟩
  · rw [confOf_boot h.data (List.prefix_refl _)]
    refine ⟨?_, fun ho => absurd h.stable ho⟩
    have := h.quorum.1
    unfold Majority at *
    have e : c.peers.countP (fun v => decide (v ∈ c.peers ∧ B v = .full)) = c.peers.countP (fun v => decide (B v = .full)) := by
      apply List.countP_congr
      intro v hv
      simp [hv]
    rw [e]; exact this
  · intro v hv
    have hv : v ∈ c.peers ∧ B v = .full := by simpa using hv
    refine ⟨bootLog K c, ?_, List.prefix_refl _⟩
    show (⟨_, v, bootLog K c⟩ : AckRec N D) ∈ (bootGlob K c B w hist).acks
    rw [pref_lastTerm h.data (by simp [bootLog]) (List.prefix_refl _)]
    simp only [bootGlob, List.mem_map, List.mem_filter]
    exact ⟨v, ⟨hv.1, by simpa using hv.2⟩, rfl⟩

theorem committed_boot (h : ∀ e ∈ K, e.term = 1 ∧ e.conf? = none) {X : Log N D} (hX : X <+: bootLog K c) {t : Nat} (ht : 1 ≤ t) :
    Committed (bootGlob K c B w hist) t X := by
  right
  refine ⟨bootLog K c, by simp [bootGlob], ?_, hX⟩
  rw [pref_lastTerm h (by simp [bootLog]) (List.prefix_refl _)]; exact ht

theorem ginv_boot (h : BootOk K c B w) (hh : ∀ v, B v = .full → bootLog K c ∈ hist v) : GInv c (bootGlob K c B w hist) where
  chain := by
    intro K1 h1 K2 h2 _
    exact pref_total (mem_created.mp h1).2 (mem_created.mp h2).2
  closed := fun X hX => good_boot (mem_created.mp hX).2
  mono := by
    intro X hX Y hY
    have hX := mem_created.mp hX
    rw [pref_lastTerm h.data hX.1 hX.2]
    by_cases h0 : Y = []
    · subst h0; exact Nat.zero_le _
    · rw [pref_lastTerm h.data h0 (hY.trans hX.2)]; exact Nat.le_refl _
  origin := by
    intro X hX
    have hX := mem_created.mp hX
    exact ⟨⟨1, w, []⟩, by simp [bootGlob], X, rfl, hX.1, pref_terms h.data hX.2⟩
  elog := by
    intro J r hJ X hne hX
    have hr : r ∈ (bootGlob K c B w hist).elections := List.mem_of_getElem? hJ
    simp only [bootGlob, List.mem_singleton] at hr
    subst hr
    exact absurd (List.prefix_nil.mp hX) hne
  elt := by
    intro r hr
    simp only [bootGlob, List.mem_singleton] at hr
    subst hr
    exact Nat.lt_succ_self 0
  change := by
    intro K0 e hX hne
    have hX := (mem_created.mp hX).2
    exact absurd ((confOf_boot h.data hX).trans (confOf_boot h.data ((List.prefix_append _ _).trans hX)).symm) hne
  el := by
    intro J r hJ
    have hr : r ∈ (bootGlob K c B w hist).elections := List.mem_of_getElem? hJ
    simp only [bootGlob, List.mem_singleton] at hr
    subst hr
    refine ⟨fun v => decide (v ∈ c.peers), ⟨?_, fun ho => absurd h.stable ho⟩, ?_, ?_⟩
    · have := h.quorum.1
      unfold Majority at *
      have e : c.peers.countP (fun v => decide (v ∈ c.peers)) = c.peers.length :=
        List.countP_eq_length.mpr (fun v hv => by simpa using hv)
      have l : c.peers.countP (fun v => decide (B v = .full)) ≤ c.peers.length := List.countP_le_length
      show _ < _
      rw [show confOf c ([] : Log N D) = c from rfl, e]
      omega
    · intro v hv
      exact ⟨0, by simp only [bootGlob, List.mem_map]; exact ⟨v, by simpa using hv, rfl⟩⟩
    · intro v hv t M hM ht
      simp only [bootGlob, List.mem_map, AckRec.mk.injEq] at hM
      obtain ⟨_, _, h1, _⟩ := hM
      dsimp only at ht; omega
  vuniq := by
    intro v hv v' hv' _ _
    simp only [bootGlob, List.mem_map] at hv hv'
    obtain ⟨_, _, rfl⟩ := hv
    obtain ⟨_, _, rfl⟩ := hv'
    rfl
  vk := by
    intro v hv
    simp only [bootGlob, List.mem_map] at hv
    obtain ⟨_, _, rfl⟩ := hv
    exact Nat.zero_le _
  vinv := by
    intro v hv t M hM ht
    simp only [bootGlob, List.mem_map, AckRec.mk.injEq] at hv hM
    obtain ⟨_, _, rfl⟩ := hv
    obtain ⟨_, _, h1, _⟩ := hM
    dsimp only at ht
    omega
  ak := by
    intro t v M hM
    simp only [bootGlob, List.mem_map, List.mem_filter, AckRec.mk.injEq, decide_eq_true_eq] at hM
    obtain ⟨_, ⟨_, hf⟩, rfl, rfl, rfl⟩ := hM
    refine ⟨by simp [bootLog], ⟨_, hh _ hf, List.prefix_refl _⟩, bootLog K c, mem_created.mpr ⟨by simp [bootLog], List.prefix_refl _⟩, ?_, List.prefix_refl _⟩
    exact pref_lastTerm h.data (by simp [bootLog]) (List.prefix_refl _)
  rv := by intro t c cl hm; simp [bootGlob] at hm
  vr := by intro t v c hm; simp [bootGlob] at hm
  ae := by intro t prev pt es c hm; simp [bootGlob] at hm
  ar := by intro t v m hm; simp [bootGlob] at hm
  com := by
    intro X hX
    simp only [bootGlob, List.mem_singleton] at hX
    subst hX
    exact ⟨mem_created.mpr ⟨by simp [bootLog], List.prefix_refl _⟩, bootLog K c, direct_boot h, rfl, List.prefix_refl _⟩
  is := by intro t X hm; simp [bootGlob] at hm
  app := by intro i n e hm; simp [bootGlob] at hm
  euniq := by simp [bootGlob]

theorem disk_pref (b : Stage) : b.disk K c <+: bootLog K c := by
  cases b <;> simp only [Stage.disk] <;> first | exact List.nil_prefix | exact List.prefix_append _ _ | exact List.prefix_refl _

theorem psnap_pref (b : Stage) : b.psnap K <+: bootLog K c := by
  cases b <;> simp only [Stage.psnap] <;> first | exact List.nil_prefix | exact List.prefix_append _ _

theorem nodeInv_stored (h : BootOk K c B w) (i : N) (hh : hist i = [(B i).disk K c]) :
    NodeInv c (bootGlob K c B w hist) i (storedNode K c (B i)) where
  pt := Nat.le_refl _
  t1 := Nat.le_refl _
  mem := rfl
  hd := by rw [show (bootGlob K c B w hist).hist = hist from rfl, hh]; exact List.mem_singleton.mpr rfl
  gd := good_boot (disk_pref _)
  vgood := trivial
  lt := by
    show lastTerm ((B i).disk K c) ≤ 1
    by_cases h0 : (B i).disk K c = []
    · rw [h0]; exact Nat.zero_le _
    · rw [pref_lastTerm h.data h0 (disk_pref _)]; exact Nat.le_refl _
  gh := by
    intro O hO
    rw [show (bootGlob K c B w hist).hist = hist from rfl, hh] at hO
    rw [List.mem_singleton.mp hO]
    exact good_boot (disk_pref _)
  rh := by
    intro O hO
    rw [show (bootGlob K c B w hist).hist = hist from rfl, hh] at hO
    rw [List.mem_singleton.mp hO, show (storedNode K c (B i)).snap = [] from rfl, merge_nil]
    exact Rel.refl _ _
  vrel := trivial
  vmark := trivial
  lead := fun hr => nomatch hr
  el := by
    intro r hr _
    simp only [bootGlob, List.mem_singleton] at hr
    subst hr
    exact ⟨Nat.le_refl _, fun hr => nomatch hr⟩
  v1 := by
    intro v hv _
    simp only [bootGlob, List.mem_map] at hv
    obtain ⟨_, _, rfl⟩ := hv
    exact Or.inr ⟨rfl, Or.inl (Nat.le_refl _)⟩
  vmem := fun _ c hc => nomatch hc
  pv := fun c hc => nomatch hc
  mv := fun c hc => nomatch hc
  elec := fun T hT => nomatch hT
  cand := fun hr => nomatch hr
  vf := fun f hf => absurd hf List.not_mem_nil
  cl := Nat.zero_le _
  cc := Or.inl rfl
  ap := Nat.zero_le _
  ac := Or.inl rfl
  sn := List.nil_prefix
  sp := List.nil_prefix
  cs := committed_boot h.data (psnap_pref _) (Nat.le_refl _)
  sa := Nat.le_refl _
  dlc := fun K hK => nomatch hK
  dlf := fun hn => absurd rfl hn
  smi := rfl

theorem nodeInv_hist {g : Glob N D} {h1 : N → List (Log N D)} {i : N} {n : NodeSt N D} (h : NodeInv c g i n)
    (he : h1 i = g.hist i) : NodeInv c { g with hist := h1 } i n :=
  { h with
    hd := by show _ ∈ h1 i; rw [he]; exact h.hd
    gh := by show ∀ O ∈ h1 i, _; rw [he]; exact h.gh
    rh := by show ∀ O ∈ h1 i, _; rw [he]; exact h.rh
    vmark := h.vmark.imp (fun d op _ hp => by cases op <;> exact hp) }

/-- The invariant of the cluster model holds when a bootstrapped group is started. -/
theorem inv_boot (h : BootOk K c B w) : Inv c (bootSys K c B w) where
  g := ginv_boot h (fun v hv => by rw [hv]; simp [Stage.disk])
  n := by
    intro i
    have hg := ginv_boot (hist := fun j => [(B j).disk K c]) h (fun v hv => by rw [hv]; simp [Stage.disk])
    have h1 := (nodeInv_stored (hist := fun j => [(B j).disk K c]) h i rfl).restart hg.toGBase
    exact nodeInv_hist (h1 := fun i => [(B i).psnap K, (B i).disk K c]) h1 (by
      show _ = updF _ i _ i
      rw [updF_same]; rfl)
  own := by
    intro i hr
    have : (bootNode K c (B i)).role = .leader := hr
    rw [bootNode, restart_role] at this; cases this

end
end Braft.Raft
