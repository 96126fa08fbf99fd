import Verif.Cluster.PipeNodeSlots
/-
The order of tasks: what a node appends after some index was applied anywhere comes after that index, and one index
has one closure, over all nodes and times.
-/
set_option linter.unusedVariables false
set_option linter.unusedSimpArgs false
set_option linter.unusedSectionVars false

namespace Braft.Cl
open Braft.Raft
variable {N D C : Type} [DecidableEq N] [DecidableEq D] {c0 : Conf N} {p : CParams}

theorem get_of_take {a b : Log N D} {k : Nat} (h : a.take k = b.take k) (hk : 1 ≤ k) : a[k - 1]? = b[k - 1]? := by
  have := congrArg (·[k - 1]?) h
  rw [List.getElem?_take_of_lt (by omega), List.getElem?_take_of_lt (by omega)] at this
  exact this

/-- A log that ends with an entry. -/
theorem lastTerm_take {l : Log N D} {k : Nat} {e : Entry N D} (hk : 1 ≤ k) (h : l[k - 1]? = some e) : lastTerm (l.take k) = e.term := by
  have hlt := (List.getElem?_eq_some_iff.mp h).1
  unfold lastTerm
  rw [List.getLast?_eq_getElem?, List.length_take, Nat.min_eq_left (by omega), List.getElem?_take_of_lt (by omega), h]

/-- What a leader appends is not in any log built before. -/
theorem appended_new {s : CSys N D} {a : Sys N D} (hr : SRT p c0 s a) {j : N} (hl : (s.node j).state.leads = true) {log' : Log N D} {ds : List D}
    (hlog : log' = (s.node j).log ++ ds.map (fun d => ⟨(s.node j).term, .data d⟩)) {idx : Nat} (h1 : (s.node j).log.length < idx)
    (h2 : idx ≤ log'.length) : log'.take idx ∉ a.g.created := by
  intro hc
  have hI := inv_reachable hr.reach
  have r := hr.rel.node j
  have hrole : (a.node j).role = .leader := (leads_role r).mp hl
  have hlead := ((hI.n j).lead hrole).1
  have hget : ∃ d, log'[idx - 1]? = some ⟨(s.node j).term, .data d⟩ := by
    rw [hlog, List.length_append, List.length_map] at h2
    rw [hlog, List.getElem?_append_right (by omega), List.getElem?_map]
    cases hd : ds[idx - 1 - (s.node j).log.length]? with
    | none => have := List.getElem?_eq_none_iff.mp hd; omega
    | some d => exact ⟨d, rfl⟩
  obtain ⟨d, hget⟩ := hget
  have ht : lastTerm (log'.take idx) = (a.node j).term := by
    rw [lastTerm_take (by omega) hget, r.term]
  have := (hlead _ hc ht).length_le
  rw [r.log, List.length_take, Nat.min_eq_left h2] at this
  omega

/-- Closures of tasks in a later state: they were there, or their entries are of logs that were not built before. -/
theorem fresh_slots (hp : COk p) {s s' : PSys N D C} {a : Sys N D} (h : PInv p c0 s) (ha : SRT p c0 s.cl a) (hs : PSteps p c0 s s') :
    PInv p c0 s' ∧ ∀ j idx d t x, Slot (s'.pn j) idx d → (s'.cl.node j).log[idx - 1]? = some ⟨t, .data x⟩ →
      Slot (s.pn j) idx d ∨ (s'.cl.node j).log.take idx ∉ a.g.created := by
  induction hs with
  | refl => exact ⟨h, fun j idx d t x hsl _ => Or.inl hsl⟩
  | @tail s1 s2 act hst hs ih =>
    obtain ⟨h1, ih⟩ := ih
    have h2 := (pstep_inv hp h1 hs).1
    refine ⟨h2, ?_⟩
    intro j idx d t x hsl hget
    have hlen := hsl.len (h2.both j)
    rcases pstep_slots hp h1 hs j idx d hsl with ⟨ho, htk⟩ | ⟨t', cf, hcf⟩ | ⟨hld, g1, g2, ds, hlog⟩
    · rw [htk]
      rw [get_of_take htk hlen.2] at hget
      exact ih j idx d t x ho hget
    · rw [hcf] at hget; cases hget
    · right
      obtain ⟨b, hab, hb⟩ := sim_steps hp ha (psteps_inv hp h hst).2
      intro hc
      exact appended_new hb (by rw [hld]; rfl) hlog g1 g2 ((gle_steps hab).created _ hc)

/-- The node of a task's closure was the leader of its entry's term. -/
theorem slot_leader (hp : COk p) {s : PSys N D C} (h : PReachable p c0 s) :
    ∀ j idx d t x, Slot (s.pn j) idx d → (s.cl.node j).log[idx - 1]? = some ⟨t, .data x⟩ → Ev.lead j t ∈ s.cl.ev := by
  have : PInv p c0 s ∧ ∀ j idx d t x, Slot (s.pn j) idx d → (s.cl.node j).log[idx - 1]? = some ⟨t, .data x⟩ → Ev.lead j t ∈ s.cl.ev := by
    induction h with
    | refl =>
      refine ⟨pinv_init hp, ?_⟩
      intro j idx d t x hsl
      rcases hsl with hsl | ⟨k, hsl, _⟩
      · cases hsl
      · have hsl : ([] : List (Option C))[k]? = _ := hsl
        simp at hsl
    | @tail s1 s2 act hst hs ih =>
      obtain ⟨h1, ih⟩ := ih
      obtain ⟨h2, hc⟩ := pstep_inv hp h1 hs
      refine ⟨h2, ?_⟩
      intro j idx d t x hsl hget
      have hlen := hsl.len (h2.both j)
      rcases pstep_slots hp h1 hs j idx d hsl with ⟨ho, htk⟩ | ⟨t', cf, hcf⟩ | ⟨hld, g1, g2, ds, hlog⟩
      · rw [get_of_take htk hlen.2] at hget
        exact Props.Cluster.ev_mono hc _ (ih j idx d t x ho hget)
      · rw [hcf] at hget; cases hget
      · rw [hlog, List.getElem?_append_right (by omega), List.getElem?_map] at hget
        cases hd : ds[idx - 1 - (s1.cl.node j).log.length]? with
        | none => rw [hd] at hget; cases hget
        | some d' =>
          rw [hd] at hget
          simp only [Option.map_some, Option.some.injEq, Entry.mk.injEq] at hget
          rw [← hget.1]
          obtain ⟨b, hb⟩ := sim_reach' hp h1.reach
          exact Props.Cluster.ev_mono hc _ ((hb.rel.node j).me (by rw [hld]; rfl))
  exact this.2

/-- What was applied is part of a log that was built. -/
theorem applied_created {s : CSys N D} {a : Sys N D} (ha : SRT p c0 s a) {i : N} {k : Nat} {e : Entry N D} (h : Ev.applied i k e ∈ s.ev) :
    1 ≤ k ∧ ∃ K, K.length = k ∧ K[k - 1]? = some e ∧ Good a.g K ∧ ∀ u, lastTerm K ≤ u → ∃ K' ∈ a.g.commits, K <+: K' := by
  have hI := inv_reachable ha.reach
  obtain ⟨h1, K, hK, hKe⟩ := hI.g.app i k e (ha.rel.ev _ h)
  have hlt : k - 1 < K.length := (List.getElem?_eq_some_iff.mp hKe).1
  have hc : Committed a.g (lastTerm K) K := Or.inr ⟨K, hK, Nat.le_refl _, List.prefix_refl _⟩
  have hgd := (hc.good hI.g.toGBase).1
  refine ⟨h1, K.take k, ?_, ?_, ?_, ?_⟩
  · rw [List.length_take]; omega
  · rw [List.getElem?_take_of_lt (by omega)]; exact hKe
  · intro K' h1 h2; exact hgd K' h1 (h2.trans (List.take_prefix _ _))
  · intro u _; exact ⟨K, hK, List.take_prefix _ _⟩

/-- Whatever was applied before: a closure taken for a task's index either existed then or its index is larger. -/
theorem slot_order (hp : COk p) {s s' : PSys N D C} (h : PInv p c0 s) (hs : PSteps p c0 s s') {i j : N} {k m : Nat} {e : Entry N D}
    {d : C} {t : Nat} {x : D} (hi : Ev.applied i k e ∈ s.cl.ev) (hsl : (m, d) ∈ (s'.pn j).popped)
    (hget : (s'.cl.node j).log[m - 1]? = some ⟨t, .data x⟩) : Slot (s.pn j) m d ∨ k < m := by
  obtain ⟨a, ha⟩ := sim_reach' hp h.reach
  obtain ⟨h', hfr⟩ := fresh_slots hp h ha hs
  rcases hfr j m d t x (Or.inl hsl) hget with h1 | h1
  · exact Or.inl h1
  · right
    apply Classical.byContradiction
    intro hn
    obtain ⟨g1, K, g2, g3, g4, g5⟩ := applied_created ha hi
    obtain ⟨K', hK', hpre⟩ := g5 _ (Nat.le_refl _)
    obtain ⟨b, hab, hb⟩ := sim_steps hp ha (psteps_inv hp h hs).2
    have hI' := inv_reachable hb.reach
    have hlen : m ≤ (s'.cl.node j).log.length ∧ 1 ≤ m := Slot.len (h'.both j) (Or.inl hsl)
    have hcm := ((h'.both j).inv.pb _ hsl).1
    rw [(h'.both j).half.core.bb.lc] at hcm
    have r := hb.rel.node j
    have hcc := (hI'.n j).cc
    rw [r.commit, r.log] at hcc
    have hcc := hcc.pre (List.take_prefix_take_left hcm : (s'.cl.node j).log.take m <+: _)
    have hKc : Committed b.g (lastTerm K') K := Or.inr ⟨K', (gle_steps hab).commits K' hK', Nat.le_refl _, hpre⟩
    apply h1
    have hp1 : (s'.cl.node j).log.take m <+: K := by
      rcases hI'.g.toGBase.comm_total hcc hKc with h3 | h3
      · exact h3
      · have := h3.length_le
        rw [List.length_take] at this
        have : K = (s'.cl.node j).log.take m := h3.eq_of_length (by rw [List.length_take]; omega)
        rw [this]; exact List.prefix_refl _
    refine g4 _ ?_ hp1
    intro h0
    have := congrArg List.length h0
    rw [List.length_take] at this
    simp only [List.length_nil] at this
    omega

/-- What a call of on_apply says about the node's log. -/
theorem onApply_log {s : PSys N D C} (h : PInv p c0 s) {i : N} {k : Nat} {d : D} {o : Option C}
    (ha : Fsm.Ev.apply k d o ∈ (s.pn i).f.ev) :
    1 ≤ k ∧ k ≤ (s.cl.node i).bb.lastCommitted ∧ (∃ t, (s.cl.node i).log[k - 1]? = some ⟨t, .data d⟩) ∧
      ∀ c, o = some c → (k, c) ∈ (s.pn i).popped := by
  have hi := (h.both i).inv
  obtain ⟨h1, h2, ⟨t, h3⟩, h4⟩ := hi.evA k d o ha
  rw [(h.both i).half.core.bb.lc] at h2
  rw [(h.both i).half.core.log] at h3
  exact ⟨h1, h2, ⟨t, fents_data.mp h3⟩, h4⟩

/-- The same entry, at whatever node and time. -/
theorem onApply_same (hp : COk p) {s s' : PSys N D C} (h : PInv p c0 s) (hs : PSteps p c0 s s') {i j : N} {k : Nat} {d d' : D}
    {o o' : Option C} (h1 : Fsm.Ev.apply k d o ∈ (s.pn i).f.ev) (h2 : Fsm.Ev.apply k d' o' ∈ (s'.pn j).f.ev) :
    d = d' ∧ ∃ t, (s.cl.node i).log[k - 1]? = some ⟨t, .data d⟩ ∧ (s'.cl.node j).log[k - 1]? = some ⟨t, .data d⟩ := by
  obtain ⟨h', hc⟩ := psteps_inv hp h hs
  obtain ⟨a1, a2, ⟨t, a3⟩, _⟩ := onApply_log h h1
  obtain ⟨b1, b2, ⟨t', b3⟩, _⟩ := onApply_log h' h2
  have htk := get_of_take (committed_take hp h.reach hc (Or.inl a2) (Or.inl b2)) a1
  rw [a3, b3] at htk
  cases htk
  exact ⟨rfl, t, a3, b3⟩

/-- One index has one closure: on_apply gets it at one node only. -/
theorem unique_ack (hp : COk p) {s s' : PSys N D C} (h : PReachable p c0 s) (hs : PSteps p c0 s s') {i j : N} {k : Nat} {d d' : D}
    {c c' : C} (h1 : Fsm.Ev.apply k d (some c) ∈ (s.pn i).f.ev) (h2 : Fsm.Ev.apply k d' (some c') ∈ (s'.pn j).f.ev) :
    i = j ∧ c = c' := by
  have hI := preach_inv hp h
  have hr' : PReachable p c0 s' := psteps_trans h hs
  have hI' := preach_inv hp hr'
  obtain ⟨_, t, e1, e2⟩ := onApply_same hp hI hs h1 h2
  have p1 := (onApply_log hI h1).2.2.2 c rfl
  have p2 := (onApply_log hI' h2).2.2.2 c' rfl
  have l1 := Props.Cluster.ev_mono (psteps_inv hp hI hs).2 _ (slot_leader hp h i k c t d (Or.inl p1) e1)
  have l2 := slot_leader hp hr' j k c' t d (Or.inl p2) e2
  have hij : i = j := Props.Cluster.one_leader_per_term_partial hp hI'.reach l1 l2
  subst hij
  refine ⟨rfl, ?_⟩
  obtain ⟨t0, ha⟩ := hI.ev i k d (some c) h1
  rcases slot_order hp hI hs ha p2 e2 with hsl | hlt
  · exact Slot.unique (hI.both i).inv (Or.inl p1) hsl
  · omega

end Braft.Cl
