import Verif.Cluster.WitnessSim
import Verif.Cluster.WitnessTraces
import Verif.Props.Cluster
import Verif.Cluster.Origin
/-
C83: groups with witnesses (Verif/Cluster/Witness.lean).

Specification vocabulary:
* `WReachable p W c0 w`: `w` is a state of some execution of a group with the initial configuration `c0` whose witnesses are
  those with `W.wit`; `WSteps p W c0 w w'`: `w'` is a later state.
* `W.toLeader`: the flag raft_enable_witness_to_leader. `Safe W`: it is on, or nobody hands the leadership to a witness.
* `shape e`: what an entry says apart from user data: its term and its configuration.
* `COk`, `LeadsC`, `HoldsC`: see Verif/Props/Cluster.lean.
-/
set_option linter.unusedVariables false
set_option linter.unusedSimpArgs false
set_option linter.unusedSectionVars false

namespace Braft.Props.Witness
open Braft.Raft Braft.Cl Braft.Cl.WTraces Braft.Props.Cluster
open Braft.Cl.Traces (c3)

section Spec
variable {N D : Type} [DecidableEq N] [DecidableEq D]

/-- The leadership is not handed to a witness, unless witnesses may lead. -/
def Safe (W : WParams N D) : Prop := W.noXfer = true ∨ W.toLeader = true

/-- An entry without its data. -/
def shape (e : Entry N (Option D)) : Nat × Option (Conf N) := (e.term, e.conf?)

/-- Is the data of the entry known? -/
def Known (e : Entry N (Option D)) : Prop := e.payload ≠ .data none
end Spec

variable {N D : Type} [DecidableEq N] [DecidableEq D] {c0 : Conf N} {p : CParams} {W : WParams N D}

theorem blur_shape {any : Bool} {e e' : Entry N (Option D)} (h : Blur any e e') : shape e' = shape e := by
  unfold shape; rw [h.term, h.conf]

theorem bl_shape {any : Bool} {l l' : Log N (Option D)} (h : BL any l l') : l'.map shape = l.map shape := by
  induction h with
  | nil => rfl
  | cons x _ ih => rw [List.map_cons, List.map_cons, blur_shape x, ih]

theorem node_shape {s w : CSys N (Option D)} (h : WR W s w) (i : N) :
    (w.node i).log.map shape = (s.node i).log.map shape ∧ (w.node i).disk.map shape = (s.node i).disk.map shape ∧
    (w.node i).sm.map shape = (s.node i).sm.map shape ∧ (w.node i).term = (s.node i).term ∧
    (w.node i).state = (s.node i).state ∧ (w.node i).applied = (s.node i).applied ∧ (w.node i).bb = (s.node i).bb := by
  have := h.node i
  unfold WNR at this
  split at this
  · exact ⟨bl_shape this.log, bl_shape this.disk, bl_shape this.sm, this.term, this.state, this.applied, this.bb⟩
  · rw [this]; exact ⟨rfl, rfl, rfl, rfl, rfl, rfl, rfl⟩

theorem node_same {s w : CSys N (Option D)} (h : WR W s w) {i : N} (hi : W.wit i = false) : w.node i = s.node i := by
  have := h.node i
  unfold WNR at this
  rwa [if_neg (by rw [hi]; simp)] at this

theorem lead_same {s w : CSys N (Option D)} (h : WR W s w) {i : N} {t : Nat} (hl : Ev.lead i t ∈ w.ev) : Ev.lead i t ∈ s.ev := by
  obtain ⟨e, h1, h2⟩ := h.ev _ hl
  cases h2; exact h1

theorem leads_same {s w : CSys N (Option D)} (h : WR W s w) {i : N} {t : Nat} (hl : LeadsC w i t) : LeadsC s i t := by
  unfold LeadsC at hl ⊢
  rw [(node_shape h i).2.2.2.2.1, (node_shape h i).2.2.2.1] at hl
  exact hl

/-! ### Elections -/

/-- C83: two nodes never become leaders of the same term. -/
theorem one_leader_partial {w : CSys N (Option D)} {i j : N} {t : Nat} (hp : COk p) (hW : Safe W) (h : WReachable p W c0 w)
    (hi : Ev.lead i t ∈ w.ev) (hj : Ev.lead j t ∈ w.ev) : i = j := by
  obtain ⟨s, _, h1, _, h2, _⟩ := wsim_two hp hW h .refl
  exact one_leader_per_term_partial hp h1 (lead_same h2 hi) (lead_same h2 hj)

/-- C83: without the flag no witness ever leads (raft.h:593-594). -/
theorem never_leads_partial {w : CSys N (Option D)} {i : N} (hp : COk p) (hx : W.noXfer = true) (hf : W.toLeader = false)
    (h : WReachable p W c0 w) (hi : W.wit i = true) :
    (w.node i).state = .follower ∧ ∀ t, Ev.lead i t ∉ w.ev := by
  obtain ⟨s, _, h1, _, h2, _⟩ := wsim_two hp (Or.inl hx) h .refl
  exact ⟨by rw [(node_shape h2 i).2.2.2.2.1]; exact (h2.idle hf i hi).1, fun t ht => h2.lead hf i t (lead_same h2 ht) hi⟩

/-! ### Logs -/

/-- C83: log matching among the nodes that are no witnesses. -/
theorem log_matching_partial {w w' : CSys N (Option D)} {i j : N} {l l' : Log N (Option D)} {k : Nat}
    {e e' : Entry N (Option D)} (hp : COk p) (hW : Safe W) (h : WReachable p W c0 w) (h' : WSteps p W c0 w w')
    (hi : W.wit i = false) (hj : W.wit j = false) (hl : HoldsC w i l) (hl' : HoldsC w' j l') (he : l[k]? = some e)
    (he' : l'[k]? = some e') (ht : e.term = e'.term) : l.take (k + 1) = l'.take (k + 1) := by
  obtain ⟨s, s', h1, h2, h3, h4⟩ := wsim_two hp hW h h'
  unfold HoldsC at hl hl'
  rw [node_same h3 hi] at hl
  rw [node_same h4 hj] at hl'
  exact Cluster.log_matching_partial (i := i) (j := j) hp h1 h2 hl hl' he he' ht

theorem holds_shape {s w : CSys N (Option D)} (h : WR W s w) {i : N} {l : Log N (Option D)} (hl : HoldsC w i l) :
    ∃ l0, HoldsC s i l0 ∧ l.map shape = l0.map shape := by
  rcases hl with rfl | rfl
  · exact ⟨_, Or.inl rfl, (node_shape h i).1⟩
  · exact ⟨_, Or.inr rfl, (node_shape h i).2.1⟩

theorem shape_get {l l0 : Log N (Option D)} (h : l.map shape = l0.map shape) {k : Nat} {e : Entry N (Option D)}
    (he : l[k]? = some e) : ∃ e0, l0[k]? = some e0 ∧ e.term = e0.term := by
  have h1 : (l.map shape)[k]? = some (shape e) := by rw [List.getElem?_map, he]; rfl
  rw [h, List.getElem?_map] at h1
  cases h0 : l0[k]? with
  | none => rw [h0] at h1; cases h1
  | some e0 =>
    rw [h0] at h1
    have h1 : shape e0 = shape e := Option.some.inj h1
    exact ⟨e0, rfl, (congrArg Prod.fst h1).symm⟩

/-- C83: witnesses match the others in the terms and configurations of their entries, so that they count for elections,
commits and configurations as other members. -/
theorem shapes_match_partial {w w' : CSys N (Option D)} {i j : N} {l l' : Log N (Option D)} {k : Nat}
    {e e' : Entry N (Option D)} (hp : COk p) (hW : Safe W) (h : WReachable p W c0 w) (h' : WSteps p W c0 w w')
    (hl : HoldsC w i l) (hl' : HoldsC w' j l') (he : l[k]? = some e) (he' : l'[k]? = some e') (ht : e.term = e'.term) :
    (l.take (k + 1)).map shape = (l'.take (k + 1)).map shape := by
  obtain ⟨s, s', h1, h2, h3, h4⟩ := wsim_two hp hW h h'
  obtain ⟨l0, a1, a2⟩ := holds_shape h3 hl
  obtain ⟨l0', b1, b2⟩ := holds_shape h4 hl'
  obtain ⟨e0, a3, a4⟩ := shape_get a2 he
  obtain ⟨e0', b3, b4⟩ := shape_get b2 he'
  have := Cluster.log_matching_partial (i := i) (j := j) hp h1 h2 a1 b1 a3 b3 (by rw [← a4, ← b4]; exact ht)
  rw [List.map_take, List.map_take, a2, b2, ← List.map_take, ← List.map_take, this]

/-- C83: what a node counts as committed or has applied is in the log of every later leader: up to data when one of them is
a witness. -/
theorem leader_completeness_partial {w w' : CSys N (Option D)} {i j : N} {t n : Nat} (hp : COk p) (hW : Safe W)
    (h : WReachable p W c0 w) (h' : WSteps p W c0 w w') (hn : n ≤ (w.node i).bb.lastCommitted ∨ n ≤ (w.node i).applied)
    (hj : LeadsC w' j t) (ht : (w.node i).term ≤ t) :
    ((w'.node j).log.take n).map shape = ((w.node i).log.take n).map shape ∧ n ≤ (w'.node j).log.length ∧
    (W.wit i = false → W.wit j = false → (w'.node j).log.take n = (w.node i).log.take n) := by
  obtain ⟨s, s', h1, h2, h3, h4⟩ := wsim_two hp hW h h'
  have a := node_shape h3 i
  have b := node_shape h4 j
  rw [a.2.2.2.2.2.1, a.2.2.2.2.2.2] at hn
  rw [a.2.2.2.1] at ht
  have key := Cluster.leader_completeness_partial (j := j) hp h1 h2 hn (leads_same h4 hj) ht
  refine ⟨by rw [List.map_take, List.map_take, a.1, b.1, ← List.map_take, ← List.map_take, key.1], ?_, fun hi hj' => ?_⟩
  · have := congrArg List.length b.1
    rw [List.length_map, List.length_map] at this
    rw [this]; exact key.2
  · rw [node_same h3 hi, node_same h4 hj']; exact key.1

/-! ### State machines -/

/-- C83: two nodes that are no witnesses never apply different entries at one index; a witness applies an entry of the same
term and configuration, and with the flag one with the same data, unless it only knows it from a snapshot. -/
theorem applied_agree_partial {w : CSys N (Option D)} {i j : N} {n : Nat} {e e' : Entry N (Option D)} (hp : COk p) (hW : Safe W)
    (h : WReachable p W c0 w) (hi : Ev.applied i n e ∈ w.ev) (hj : Ev.applied j n e' ∈ w.ev) :
    shape e = shape e' ∧ (W.wit i = false → W.wit j = false → e = e') ∧
    (W.toLeader = true → Known e → Known e' → e = e') := by
  obtain ⟨s, _, h1, _, h2, _⟩ := wsim_two hp hW h .refl
  have key : ∀ {i : N} {e}, Ev.applied i n e ∈ w.ev → ∃ e0, Ev.applied i n e0 ∈ s.ev ∧ shape e = shape e0 ∧
      (W.wit i = false → e = e0) ∧ (W.toLeader = true → Known e → e = e0) := by
    intro i e he
    obtain ⟨x, k1, k2⟩ := h2.ev _ he
    cases k2 with
    | same => exact ⟨e, k1, rfl, fun _ => rfl, fun _ _ => rfl⟩
    | @ap _ _ e0 _ hw hb =>
      refine ⟨e0, k1, blur_shape hb, fun hn => (by rw [hn] at hw; cases hw), fun hf hk => ?_⟩
      rcases hb with rfl | ⟨_, _, _, hb | hb⟩
      · rfl
      · rw [hf] at hb; cases hb
      · exact absurd hb hk
  obtain ⟨a, a1, a2, a3, a4⟩ := key hi
  obtain ⟨b, b1, b2, b3, b4⟩ := key hj
  have := Cluster.applied_agree_partial hp h1 a1 b1
  subst this
  exact ⟨by rw [a2, b2], fun x y => by rw [a3 x, b3 y], fun hf x y => by rw [a4 hf x, b4 hf y]⟩

/-- C83: the state machines of nodes that are no witnesses are comparable, at any two moments, and contain the beginning of
the node's log. -/
theorem state_machines_agree_partial {w w' : CSys N (Option D)} {i j : N} (hp : COk p) (hW : Safe W)
    (h : WReachable p W c0 w) (h' : WSteps p W c0 w w') (hi : W.wit i = false) (hj : W.wit j = false) :
    (w.node i).sm = (w.node i).log.take (w.node i).applied ∧ (w.node i).sm.length = (w.node i).applied ∧
    ((w.node i).sm <+: (w'.node j).sm ∨ (w'.node j).sm <+: (w.node i).sm) := by
  obtain ⟨s, s', h1, h2, h3, h4⟩ := wsim_two hp hW h h'
  rw [node_same h3 hi, node_same h4 hj]
  exact Cluster.state_machines_agree_partial hp h1 h2

/-! ### Where the data comes from -/

/-- In an execution that ends in `w`: at some moment a batch of tasks was given to node `j`, the leader of term `t`; the data
of one of them is `d`, and the next free index, counted within the batch, is `k`. -/
def WSubmitted (p : CParams) (W : WParams N D) (c0 : Conf N) (w : CSys N (Option D)) (t : Nat) (d : D) (k : Nat) : Prop :=
  ∃ w0 w1 j ds m, WReachable p W c0 w0 ∧ wstep p W c0 w0 (.apply j ds) = some w1 ∧ WSteps p W c0 w1 w ∧ LeadsC w0 j t ∧
    ds[m]? = some (some d) ∧ k = (w0.node j).log.length + m + 1

def WCame (p : CParams) (W : WParams N D) (c0 : Conf N) (w : CSys N (Option D)) (n : Nat) (e : Entry N (Option D)) : Prop :=
  ∀ o, e.payload = .data o → ∃ d, o = some d ∧ WSubmitted p W c0 w e.term d (n + 1)

theorem worigin (hp : COk p) (hW : Safe W) {w : CSys N (Option D)} (h : WReachable p W c0 w) :
    ∃ s, CReachable p c0 s ∧ WR W s w ∧ Og.PI (WCame p W c0 w) s := by
  have key : ∀ w, WSteps p W c0 initC w → ∃ s, CReachable p c0 s ∧ WR W s w ∧ Og.PI (WCame p W c0 w) s := by
    intro w h
    induction h with
    | refl => exact ⟨initC, .refl, wsim_init, Og.pi_init⟩
    | @tail w1 w2 a h1 h2 ih =>
      obtain ⟨s, k1, k2, k3⟩ := ih
      obtain ⟨a', s', j1, j2, j3⟩ := wsim_step hp hW k1 k2 h2
      refine ⟨s', .tail a' k1 j1, j2, Og.pi_step (facts_reach hp k1) (k3.mono ?_) j1 ?_ ?_⟩
      · intro k e he o ho
        obtain ⟨d, x, w0, w1', j, ds, m, b1, b2, b3, b4⟩ := he o ho
        exact ⟨d, x, w0, w1', j, ds, m, b1, b2, .tail a b3 h2, b4⟩
      · intro k e he o ho
        refine absurd ?_ he
        unfold Entry.conf?
        rw [ho]
      · intro i ds hx m o hm o' ho
        cases ho
        have ha := j3 i ds hx
        subst ha
        have hpre : (w1.node i).state = .leader ∧ ds.all (·.isSome) = true := by
          unfold wstep at h2
          split at h2
          · rename_i hpre
            unfold wpre at hpre
            rw [Bool.and_eq_true] at hpre
            obtain ⟨x1, x2⟩ := hpre
            unfold cpre at x2; dsimp only at x2
            rw [Bool.and_eq_true, decide_eq_true_eq] at x2
            exact ⟨x2.1, x1⟩
          · cases h2
        have ho := List.all_eq_true.mp hpre.2 o (List.mem_of_getElem? hm)
        cases o with
        | none => cases ho
        | some d =>
          have hsh := node_shape k2 i
          have hln : (w1.node i).log.length = (s.node i).log.length := by
            have := congrArg List.length hsh.1
            rwa [List.length_map, List.length_map] at this
          refine ⟨d, rfl, w1, w2, i, ds, m, h1, h2, .refl, ⟨by rw [hpre.1]; rfl, hsh.2.2.2.1⟩, hm, ?_⟩
          rw [hln]
  exact key w h

/-- C83: the data that a node which is no witness applies was submitted to the leader of that term, and has the index it
got there. The same holds for witnesses when the flag is on, unless they know the entry from a snapshot only. -/
theorem applied_was_submitted_partial {w : CSys N (Option D)} {i : N} {n t : Nat} {o : Option D} (hp : COk p) (hW : Safe W)
    (h : WReachable p W c0 w) (ha : Ev.applied i n ⟨t, .data o⟩ ∈ w.ev) :
    (W.wit i = false → ∃ d, o = some d ∧ WSubmitted p W c0 w t d n) ∧
    (W.toLeader = true → o ≠ none → ∃ d, o = some d ∧ WSubmitted p W c0 w t d n) := by
  obtain ⟨s, h1, h2, h3⟩ := worigin hp hW h
  have fin : Ev.applied i n ⟨t, .data o⟩ ∈ s.ev → ∃ d, o = some d ∧ WSubmitted p W c0 w t d n := by
    intro hs
    have hp := h3.ev _ hs
    obtain ⟨d, x1, x2⟩ := hp.2 o rfl
    rw [show n - 1 + 1 = n by have := hp.1; omega] at x2
    exact ⟨d, x1, x2⟩
  obtain ⟨x, k1, k2⟩ := h2.ev _ ha
  cases k2 with
  | same => exact ⟨fun _ => fin k1, fun _ _ => fin k1⟩
  | @ap _ _ e0 _ hw hb =>
    refine ⟨fun hn => (by rw [hn] at hw; cases hw), fun hf hk => ?_⟩
    rcases hb with hb | ⟨_, _, _, hb | hb⟩
    · rw [← hb] at k1; exact fin k1
    · rw [hf] at hb; cases hb
    · exact absurd (Payload.data.inj hb) hk

/-- C83: the same for what nodes that are no witnesses store and have in their state machines and snapshots. -/
theorem stored_was_submitted_partial {w : CSys N (Option D)} {i : N} {n t : Nat} {o : Option D} (hp : COk p) (hW : Safe W)
    (h : WReachable p W c0 w) (hi : W.wit i = false) (l : Log N (Option D))
    (hl : HoldsC w i l ∨ l = (w.node i).sm ∨ l = (w.node i).psnap) (ha : l[n]? = some ⟨t, .data o⟩) :
    ∃ d, o = some d ∧ WSubmitted p W c0 w t d (n + 1) := by
  obtain ⟨s, h1, h2, h3⟩ := worigin hp hW h
  unfold HoldsC at hl
  rw [node_same h2 hi] at hl
  have hn := h3.node i
  have hf := (facts_reach hp h1).1 i
  have : Og.LP (WCame p W c0 w) l := by
    rcases hl with (hl | hl) | hl | hl
    · rw [hl]; exact hn.log
    · rw [hl]; exact hn.dr.head
    · rw [hl, hf.sm]; exact hn.log.take _
    · rw [hl]; exact hn.psnap
  exact this _ _ ha o rfl

/-! ### The hypotheses are met -/

/-- Without the flag: 1 leads; the witness stores and applies an entry without data; 2 and 1 apply it with its data. -/
example : Safe (W3 false true) ∧ ∃ w w' : S, WReachable Defaults (W3 false true) c3 w ∧
    WSteps Defaults (W3 false true) c3 w w' ∧ LeadsC w' 1 2 ∧
    HoldsC w 3 [wc 2 c3, wd 2 0] ∧ HoldsC w' 2 [wc 2 c3, wd 2 7] ∧ HoldsC w 1 [wc 2 c3, wd 2 7] ∧
    (w.node 1).bb.lastCommitted = 2 ∧ (w.node 1).term = 2 ∧ Ev.lead 1 2 ∈ w'.ev ∧
    Ev.applied 1 2 (wd 2 7) ∈ w'.ev ∧ Ev.applied 2 2 (wd 2 7) ∈ w'.ev ∧ Ev.applied 3 2 (wd 2 0) ∈ w'.ev := by
  refine ⟨Or.inl rfl, wafter Defaults (W3 false true) c3 initC (begun 0),
    wafter Defaults (W3 false true) c3 (wafter Defaults (W3 false true) c3 initC (begun 0)) caught,
    wafter_ok (by decide +kernel), wafter_ok (by decide +kernel), ?_, ?_, ?_, ?_, by decide +kernel, by decide +kernel,
    by decide +kernel, by decide +kernel, by decide +kernel, by decide +kernel⟩
  all_goals (first | unfold LeadsC | unfold HoldsC)
  all_goals decide +kernel

/-- With the flag: the witness stores the data, is elected, and 2 gets the entry from it. -/
example : Safe (W3 true true) ∧ ∃ w : S, WReachable Defaults (W3 true true) c3 w ∧ LeadsC w 3 3 ∧ Ev.lead 3 3 ∈ w.ev ∧
    HoldsC w 2 [wc 2 c3, wd 2 7, wc 3 c3] ∧ Ev.applied 1 2 (wd 2 7) ∈ w.ev ∧ Ev.applied 2 2 (wd 2 7) ∈ w.ev ∧
    Ev.applied 3 2 (wd 2 7) ∈ w.ev := by
  refine ⟨Or.inr rfl, wafter Defaults (W3 true true) c3 initC (begun 7 ++ taken (.elect 3) 7),
    wafter_ok (by decide +kernel), ?_, by decide +kernel, ?_, by decide +kernel, by decide +kernel, by decide +kernel⟩
  all_goals (first | unfold LeadsC | unfold HoldsC)
  all_goals decide +kernel

/-- A witness that got a snapshot knows the ids of the entries it covers, not their data. -/
example : ∃ w : S, WReachable Defaults (W3 true true) c3 w ∧
    (w.node 3).sm = [wc 2 c3, ⟨2, .data none⟩] ∧ (w.node 3).applied = 2 ∧ (w.node 1).sm = [wc 2 c3, wd 2 7] := by
  refine ⟨wafter Defaults (W3 true true) c3 initC installed, wafter_ok (by decide +kernel), by decide +kernel,
    by decide +kernel, by decide +kernel⟩

/-! ### What goes wrong otherwise -/

/-- C83 fails when the leadership is handed to a witness: `transfer_leadership_to` does not look at the role of the peer
(node.cpp:1189-1262), and `handle_timeout_now_request` lets a witness stand for election whatever the flag
(node.cpp:1092-1150). With the flags' default values the witness becomes leader, although raft.h:593-594 says that it never
does, until its stepdown timer fires (node.cpp:835, 843-853). It replicates the empty data it stored: nodes 1 and 2, no witnesses, apply
different entries at index 2, and what 1 had committed is lost. -/
theorem transfer_to_witness_breaks_safety :
    ∃ w w' : S, WReachable Defaults (W3 false false) c3 w ∧ WSteps Defaults (W3 false false) c3 w w' ∧
      (w.node 1).bb.lastCommitted = 2 ∧ (w.node 1).sm = [wc 2 c3, wd 2 7] ∧
      Ev.lead 3 3 ∈ w'.ev ∧ Ev.applied 1 2 (wd 2 7) ∈ w'.ev ∧ Ev.applied 2 2 (wd 2 0) ∈ w'.ev ∧
      (w'.node 2).log = [wc 2 c3, wd 2 0, wc 3 c3] := by
  refine ⟨wafter Defaults (W3 false false) c3 initC (begun 0),
    wafter Defaults (W3 false false) c3 (wafter Defaults (W3 false false) c3 initC (begun 0)) (taken (.timeoutNow 3 2 false true) 0),
    wafter_ok (by decide +kernel), wafter_ok (by decide +kernel), by decide +kernel, by decide +kernel, by decide +kernel,
    by decide +kernel, by decide +kernel, by decide +kernel⟩

/-- C83 fails when the flag is turned on in a group whose witnesses have stored entries without data: what is stored does not
say whether the data was left out. -/
theorem flag_turned_on_breaks_safety :
    ∃ w w' : S, WReachable Defaults (W3 false true) c3 w ∧ WSteps Defaults (W3 true true) c3 w w' ∧
      (w.node 1).sm = [wc 2 c3, wd 2 7] ∧ Ev.lead 3 3 ∈ w'.ev ∧ Ev.applied 1 2 (wd 2 7) ∈ w'.ev ∧
      Ev.applied 2 2 (wd 2 0) ∈ w'.ev := by
  refine ⟨wafter Defaults (W3 false true) c3 initC (begun 0),
    wafter Defaults (W3 true true) c3 (wafter Defaults (W3 false true) c3 initC (begun 0)) (taken (.elect 3) 0),
    wafter_ok (by decide +kernel), wafter_ok (by decide +kernel), by decide +kernel, by decide +kernel, by decide +kernel,
    by decide +kernel⟩

end Braft.Props.Witness
