import Verif.Cluster.ConfNodeRun
import Verif.Cluster.ConfNodeTraces
import Verif.Props.Cluster
/-
C85: membership changes, end to end: the cluster of servers in which configuration entries enter a log only through
ConfigurationCtx (Verif/Cluster/ConfNode.lean).
-/
set_option linter.unusedVariables false
set_option linter.unusedSimpArgs false
set_option linter.unusedSectionVars false

namespace Braft.Props.ConfNode
open Braft.Raft Braft.Cl Braft.CN
variable {N D : Type} [DecidableEq N] [DecidableEq D] {c0 : Conf N} {p : CParams}

/-- Specification: the `r`-th request to the process at `i` asked for the peers `c`. -/
def Asked (s : FSys N D) (i : N) (r : Nat) (c : List N) : Prop := (s.cx i).reqs[r]? = some c

/-- Specification: its closure has run with OK. -/
def AnsweredOk (s : FSys N D) (i : N) (r : Nat) : Prop := (r, ConfCtx.Code.ok) ∈ (s.cx i).ran

/-- Specification: every configuration entry in the log of the server is committed. -/
def ConfsCommitted (c : Srv N D) : Prop :=
  ∀ k t cf, c.log[k]? = some ⟨t, .conf cf⟩ → k + 1 ≤ c.bb.lastCommitted

/-- Specification: after a joint configuration comes its new part. After a configuration comes a joint one with it as
the old part, or one that has, as a set, one peer more or less. -/
def MayFollow (c c' : Conf N) : Prop :=
  if c.old = [] then
    (c'.old = c.peers ∧ c'.old ≠ []) ∨
    (c'.old = [] ∧ ∃ x, (∀ q, q ≠ x → (q ∈ c'.peers ↔ q ∈ c.peers)) ∧ (x ∈ c'.peers ↔ x ∉ c.peers))
  else c'.old = [] ∧ c'.peers = c.peers

/-- Specification: what a call may do to the log of the server. -/
def LogEffect (c0 : Conf N) (c c' : Srv N D) : Prop :=
  c'.log = c.log ∨
  ∃ cf, c'.log = c.log ++ [⟨c.term, .conf cf⟩] ∧ c.state.leads = true ∧ ConfsCommitted c ∧ MayFollow (confOf c0 c.log) cf

theorem confs_le (l : Log N D) : ∀ k t cf, l[k]? = some ⟨t, .conf cf⟩ → k + 1 ≤ lastConfIdx l := by
  generalize hn : l.length = n
  induction n generalizing l with
  | zero =>
    intro k t cf h
    rw [List.length_eq_zero_iff.mp hn] at h; cases h
  | succ n ih =>
    intro k t cf h
    have hne : l ≠ [] := fun he => by rw [he] at hn; cases hn
    have hl : l = l.dropLast ++ [l.getLast hne] := (List.dropLast_concat_getLast hne).symm
    have hlen : l.dropLast.length = n := by rw [List.length_dropLast, hn]; rfl
    generalize l.dropLast = m at hl hlen
    generalize l.getLast hne = e at hl
    subst hl
    have hk : k < (m ++ [e]).length := (List.getElem?_eq_some_iff.mp h).1
    rw [List.length_append, List.length_singleton] at hk
    cases hc : e.conf? with
    | none =>
      rw [lastConfIdx_data hc]
      by_cases hkm : k < m.length
      · rw [List.getElem?_append_left hkm] at h
        exact ih m hlen k t cf h
      · rw [List.getElem?_append_right (by omega)] at h
        have : k - m.length = 0 := by omega
        rw [this] at h
        simp only [List.getElem?_cons_zero, Option.some.injEq] at h
        rw [h] at hc; cases hc
    | some cf' =>
      rw [lastConfIdx_conf (by rw [hc]; rfl)]
      exact hk

theorem committed_of {c : Srv N D} (h : lastConfIdx c.log ≤ c.bb.lastCommitted) : ConfsCommitted c :=
  fun k t cf he => Nat.le_trans (confs_le c.log k t cf he) h

theorem may_follow {c c' : Conf N} (h : confStepOk c c' = true) : MayFollow c c' := by
  unfold confStepOk at h
  unfold MayFollow
  split
  · rename_i ho
    rw [if_pos ho] at h
    simp only [Bool.or_eq_true, Bool.and_eq_true, decide_eq_true_eq, List.any_eq_true] at h
    rcases h with ⟨h1, h3⟩ | h
    · refine Or.inr ⟨h1, ?_⟩
      rcases h3 with ⟨x, hx, hp⟩ | ⟨x, hx, hxn, hp⟩
      · refine ⟨x, fun q hq => ?_, ?_⟩
        · rw [hp.mem_iff, c.nd.mem_erase_iff]
          exact ⟨fun h => h.2, fun h => ⟨hq, h⟩⟩
        · rw [hp.mem_iff, c.nd.mem_erase_iff]
          exact ⟨fun h => absurd rfl h.1, fun h => absurd hx h⟩
      · refine ⟨x, fun q hq => ?_, ?_⟩
        · rw [← hp.mem_iff, c'.nd.mem_erase_iff]
          exact ⟨fun h => ⟨hq, h⟩, fun h => h.2⟩
        · exact ⟨fun _ => hxn, fun _ => hx⟩
    · exact Or.inl h
  · rename_i ho
    rw [if_neg ho] at h
    exact of_decide_eq_true h

theorem put_effect {s s' : FSys N D} {i : N} {x' : ConfCtx.State N} {f : List (Nat × Option Bool)} {ok : Bool}
    (h : put p c0 s i x' f ok = some s') : LogEffect c0 (s.cl.node i) (s'.cl.node i) := by
  unfold put at h
  split at h
  · split at h
    · cases h
    · rename_i cf _
      rw [Option.map_eq_some_iff] at h
      obtain ⟨cl', hc, rfl⟩ := h
      obtain ⟨hpre, hn, _⟩ := cstep_some hc
      have hpre : ((s.cl.node i).state.leads && decide (lastConfIdx (s.cl.node i).log ≤ (s.cl.node i).bb.lastCommitted) &&
        confStepOk (confOf c0 (s.cl.node i).log) cf) = true := hpre
      rw [Bool.and_eq_true, Bool.and_eq_true, decide_eq_true_eq] at hpre
      refine Or.inr ⟨cf, ?_, hpre.1.1, committed_of hpre.1.2, may_follow hpre.2⟩
      replace hn : cl'.node i = sAppendOwn (s.cl.node i) cf [⟨(s.cl.node i).term, .conf cf⟩] := hn
      show (cl'.node i).log = _
      rw [hn]; rfl
  · split at h
    · rw [Option.map_eq_some_iff] at h
      obtain ⟨cl', hc, rfl⟩ := h
      have hn : cl'.node i = sStepDown (s.cl.node i) x'.term ok := (cstep_some hc).2.1
      refine Or.inl ?_
      show (cl'.node i).log = _
      rw [hn]; rfl
    · cases h
      exact Or.inl rfl

/-- C85: change_peers always takes effect as ConfigurationCtx says, and if it appends a configuration entry then the
server leads, all configuration entries before it are committed, and it may follow the last one. -/
theorem C85_change_partial (hp : COk p) (hck : p.checkAborts = true) {s : FSys N D} (h : FReach p c0 s) (i : N) (newc : List N)
    (addOk : N → Bool) (ok : Bool) (hn : newc.Nodup) :
    ∃ s', fstep p c0 s (.change i newc addOk ok) = some s' ∧ s'.cx i = (s.cx i).change newc addOk true ∧
      LogEffect c0 (s.cl.node i) (s'.cl.node i) := by
  obtain ⟨h1, h2⟩ := freach_inv hp hck h
  obtain ⟨s', e1, e2⟩ := call_ni (ok := ok) h1 (h2 i) ((h2 i).hist.change newc hn addOk true)
    (change_out (h2 i).hist.inv.1 (h2 i).hist.mem (h2 i).ex newc addOk)
  exact ⟨s', by unfold fstep; dsimp only; rw [if_pos hn]; exact e1, e2.cx, put_effect e1⟩

/-- C85: the same for add_peer. -/
theorem C85_add_peer_partial (hp : COk p) (hck : p.checkAborts = true) {s : FSys N D} (h : FReach p c0 s) (i x : N)
    (addOk : N → Bool) (ok : Bool) :
    ∃ s', fstep p c0 s (.addPeer i x addOk ok) = some s' ∧ s'.cx i = (s.cx i).addPeer x addOk true ∧
      LogEffect c0 (s.cl.node i) (s'.cl.node i) := by
  obtain ⟨h1, h2⟩ := freach_inv hp hck h
  obtain ⟨s', e1, e2⟩ := call_ni (ok := ok) h1 (h2 i) ((h2 i).hist.addPeer x addOk true)
    (change_out (h2 i).hist.inv.1 (h2 i).hist.mem (h2 i).ex _ addOk)
  exact ⟨s', e1, e2.cx, put_effect e1⟩

/-- C85: the same for remove_peer. -/
theorem C85_remove_peer_partial (hp : COk p) (hck : p.checkAborts = true) {s : FSys N D} (h : FReach p c0 s) (i x : N)
    (addOk : N → Bool) (ok : Bool) :
    ∃ s', fstep p c0 s (.removePeer i x addOk ok) = some s' ∧ s'.cx i = (s.cx i).removePeer x addOk true ∧
      LogEffect c0 (s.cl.node i) (s'.cl.node i) := by
  obtain ⟨h1, h2⟩ := freach_inv hp hck h
  obtain ⟨s', e1, e2⟩ := call_ni (ok := ok) h1 (h2 i) ((h2 i).hist.removePeer x addOk true)
    (change_out (h2 i).hist.inv.1 (h2 i).hist.mem (h2 i).ex _ addOk)
  exact ⟨s', e1, e2.cx, put_effect e1⟩

/-- C85: the same when a new peer has caught up, or has not. -/
theorem C85_caught_up_partial (hp : COk p) (hck : p.checkAborts = true) {s : FSys N D} (h : FReach p c0 s) (i : N) (k : Nat)
    (c : ConfCtx.Caught) (ok : Bool) :
    ∃ s', fstep p c0 s (.caughtUp i k c ok) = some s' ∧ s'.cx i = (s.cx i).caughtUp k c true ∧
      LogEffect c0 (s.cl.node i) (s'.cl.node i) := by
  obtain ⟨h1, h2⟩ := freach_inv hp hck h
  obtain ⟨s', e1, e2⟩ := call_ni (ok := ok) h1 (h2 i) ((h2 i).hist.caughtUp k c true)
    (caughtUp_out (h2 i).hist.inv.1 (h2 i).hist.mem (h2 i).ex k c)
  exact ⟨s', e1, e2.cx, put_effect e1⟩

/-- C85: the same when the closure of a configuration entry runs, at any time after its fate is decided. -/
theorem C85_entry_done_partial (hp : COk p) (hck : p.checkAborts = true) {s : FSys N D} (h : FReach p c0 s) (i : N) (k idx : Nat)
    (b ok : Bool) (hk : (s.fate i)[k]? = some (idx, some b)) :
    ∃ s', fstep p c0 s (.entryDone i k ok) = some s' ∧ s'.cx i = (s.cx i).entryDone k b true ∧
      LogEffect c0 (s.cl.node i) (s'.cl.node i) := by
  obtain ⟨h1, h2⟩ := freach_inv hp hck h
  obtain ⟨s', e1, e2⟩ := done_ni (ok := ok) h1 (h2 i) hk
  exact ⟨s', by unfold fstep; dsimp only; rw [hk]; exact e1, e2.cx, put_effect e1⟩

/-- C85: no other step of a leader appends a configuration entry. A new leader appends one, which repeats the
configuration of its log. -/
theorem C85_others_partial (hp : COk p) (hck : p.checkAborts = true) {s s' : FSys N D} (h : FReach p c0 s) {a : CAct N D}
    {addOk : N → Bool} (hs : fstep p c0 s (.srv a addOk) = some s') (i : N) (hl : (s'.cl.node i).state.leads = true) :
    (s'.cl.node i).term = (s.cl.node i).term ∧
    (((s.cl.node i).state.leads = true ∧
      ∃ es, (s'.cl.node i).log = (s.cl.node i).log ++ es ∧ ∀ e ∈ es, ∃ d, e.payload = .data d) ∨
     ((s.cl.node i).state = .candidate ∧
      (s'.cl.node i).log = (s.cl.node i).log ++ [⟨(s.cl.node i).term, .conf (confOf c0 (s.cl.node i).log)⟩])) := by
  obtain ⟨h1, h2⟩ := freach_inv hp hck h
  unfold fstep at hs
  dsimp only at hs
  split at hs
  · cases hs
  · rename_i hb
    rw [Option.map_eq_some_iff] at hs
    obtain ⟨cl', hc, rfl⟩ := hs
    replace hl : (cl'.node i).state.leads = true := hl
    obtain ⟨hpre, hn, ho⟩ := cstep_some hc
    show (cl'.node i).term = _ ∧ (_ ∧ (∃ es, (cl'.node i).log = _ ∧ _) ∨ _ ∧ (cl'.node i).log = _)
    by_cases hi : i = a.at
    · by_cases hre : restarts p a.at (s.cl.node a.at) a = true
      · have hf := restarts_follower (c0 := c0) hre
        rw [← hn, ← hi] at hf
        rw [hf] at hl; cases hl
      · by_cases htr : ∃ j, a = .transfer j
        · obtain ⟨j, rfl⟩ := htr
          have hi : i = j := hi
          subst hi
          have hpre : decide ((s.cl.node i).state = .leader) = true := hpre
          replace hn : cl'.node i = { s.cl.node i with state := .transferring } := hn
          rw [hn]
          refine ⟨rfl, Or.inl ⟨?_, [], (List.append_nil _).symm, fun e he => nomatch he⟩⟩
          rw [of_decide_eq_true hpre]; rfl
        · have hfr := frame (c0 := c0) hck (pre_reach hp h1 a.at) hpre (by simpa using hre)
            (fun j cf he => by subst he; exact hb rfl) (fun j he => htr ⟨j, he⟩)
          rw [← hn, ← hi] at hfr
          rcases hfr with ⟨g, g', st, tm, ds, lg, dt, bb⟩ | ⟨g, g', tm, lg⟩ | ⟨g, g', tm, lg⟩ | ⟨g, g', tm, lg, mem⟩ | ⟨g', tm⟩
          · refine ⟨tm, Or.inl ⟨g, ds, lg, fun e he => ?_⟩⟩
            have := dt e he
            unfold Entry.conf? at this
            cases hpl : e.payload with
            | data d => exact ⟨d, rfl⟩
            | conf cf => rw [hpl] at this; cases this
          · exact ⟨tm, Or.inr ⟨g, lg⟩⟩
          · rw [g'] at hl; cases hl
          · rw [g'] at hl; cases hl
          · rw [g'] at hl; cases hl
    · have he := ho i hi
      rw [he] at hl ⊢
      exact ⟨rfl, Or.inl ⟨hl, [], (List.append_nil _).symm, fun e he => nomatch he⟩⟩

/-- C85: ConfigurationCtx and the log agree on the configuration at all times. -/
theorem C85_agree_partial (hp : COk p) (hck : p.checkAborts = true) {s : FSys N D} (h : FReach p c0 s) (i : N) :
    (s.cx i).conf = (confOf c0 (s.cl.node i).log).peers ∧ (s.cx i).old = (confOf c0 (s.cl.node i).log).old ∧
    (s.cx i).term = (s.cl.node i).term ∧ (s.cx i).role = roleOfSt (s.cl.node i).state ∧ (s.cx i).bad = false := by
  have hn := (freach_inv hp hck h).2 i
  exact ⟨hn.conf, hn.old, hn.term, hn.role, hn.hist.inv.1.base.good⟩

/-- C85: the configuration that a leader with no change under way reports (list_peers, get_status) is committed and not
a joint one. -/
theorem C85_settled_partial (hp : COk p) (hck : p.checkAborts = true) {s : FSys N D} (h : FReach p c0 s) (i : N)
    (hl : (s.cl.node i).state.leads = true) (hb : (s.cx i).busy = false) :
    ConfsCommitted (s.cl.node i) ∧ (confOf c0 (s.cl.node i).log).old = [] := by
  have hn := (freach_inv hp hck h).2 i
  have hst : (s.cx i).stage = .none := by
    unfold ConfCtx.State.busy at hb
    simpa using hb
  refine ⟨committed_of (hn.idle hl (Or.inl hst)), ?_⟩
  rw [← hn.old]
  have hph := hn.hist.inv.1.phase
  unfold ConfCtx.Phase at hph
  have hr := (leads_iff hn.role).mp hl
  have hlead : ConfCtx.Lead (s.cx i) := by
    rcases hr with hr | hr <;> rw [hr] at hph <;> exact hph
  unfold ConfCtx.Lead at hlead
  rw [hst] at hlead
  exact hlead.2.1.old

/-- C85: when a membership change is answered with OK, its peers are those of a configuration entry that is committed,
and from then on that entry is in the log of every leader of that or a later term, at the same index. -/
theorem C85_ok_partial (hp : COk p) (hck : p.checkAborts = true) {s s' : FSys N D} (h : FReach p c0 s) (h' : FSteps p c0 s s')
    {i : N} {r : Nat} (hr : AnsweredOk s i r) :
    ∃ (c : List N) (k t : Nat) (cf : Conf N), Asked s i r c ∧ (∀ q, q ∈ cf.peers ↔ q ∈ c) ∧ cf.old = [] ∧ t ≤ (s.cl.node i).term ∧
      ∀ j T, Cluster.LeadsC s'.cl j T → t ≤ T → (s'.cl.node j).log[k]? = some ⟨t, .conf cf⟩ := by
  obtain ⟨h1, h2⟩ := freach_inv hp hck h
  have hst := (fsteps_inv hp hck h h').2
  obtain ⟨c, t, d, e1, e2, e3⟩ := (h2 i).hist.inv.1.base.oks r hr
  obtain ⟨k, s0, g1, g2, g3, g4, g5, g6, cf, g7, g8, g9⟩ := (h2 i).comm _ e2
  refine ⟨c, k - 1, t, cf, e1, ?_, g9, (h2 i).cle _ e2, ?_⟩
  · intro q
    rw [g8]
    unfold ConfCtx.sameSet at e3
    simp only [Bool.and_eq_true, decide_eq_true_eq] at e3
    exact ⟨e3.1 q, e3.2 q⟩
  · intro j T hj hT
    obtain ⟨f1, _⟩ := Cluster.leader_completeness_partial hp g1 (ctrans g2 hst) (Or.inl g6) hj (by rw [g4]; exact hT)
    have : ((s'.cl.node j).log.take k)[k - 1]? = ((s0.node i).log.take k)[k - 1]? := by rw [f1]
    rw [List.getElem?_take, List.getElem?_take, if_pos (by omega), if_pos (by omega)] at this
    rw [this]; exact g7

/-! ### The hypotheses are met -/

open Braft.CN.Tr Braft.Cl.Traces

def P : CParams := ⟨Norm, true, true, false⟩
example : COk P ∧ P.checkAborts = true := ⟨⟨rfl, rfl, Or.inr rfl⟩, rfl⟩

def s0 : FSys Nat Nat := afterF P c3 (finit c3) lead
def s1 : FSys Nat Nat := afterF P c3 s0 join
def s2 : FSys Nat Nat := afterF P c3 s1 joint
def s3 : FSys Nat Nat := afterF P c3 s2 stable
def s4 : FSys Nat Nat := afterF P c3 s3 next

theorem s0_ok : FReach P c3 s0 := freach_steps .init (afterF_ok (by decide +kernel))
theorem s01 : FSteps P c3 s0 s1 := afterF_ok (by decide +kernel)
theorem s12 : FSteps P c3 s1 s2 := afterF_ok (by decide +kernel)
theorem s23 : FSteps P c3 s2 s3 := afterF_ok (by decide +kernel)
theorem s34 : FSteps P c3 s3 s4 := afterF_ok (by decide +kernel)
theorem s3_ok : FReach P c3 s3 := freach_steps (freach_steps (freach_steps s0_ok s01) s12) s23

/-- 1 leads with no change under way. Then the change to 1, 2, 4 waits for its joint entry, and a second one is refused;
the joint entry is at index 2, uncommitted. -/
example : ((s0.cl.node 1).state.leads = true ∧ (s0.cx 1).busy = false ∧ s0.fate 1 = []) ∧
    (s1.cx 1).ran = [(1, .ebusy)] ∧ s1.fate 1 = [(2, none)] ∧ (s1.cl.node 1).log = [ce 2 c3, ce 2 cj] ∧
    (s1.cl.node 1).bb.lastCommitted = 1 := by decide +kernel

/-- The joint entry has committed and the new configuration is appended; then that has committed and the request is
answered with OK; then 2, which leads term 3, has the entry at the same place. -/
example : (s2.cl.node 1).log = [ce 2 c3, ce 2 cj, ce 2 cn] ∧ (s2.cl.node 1).bb.lastCommitted = 2 ∧ AnsweredOk s3 1 0 ∧
    Asked s3 1 0 [1, 2, 4] ∧ Cluster.LeadsC s4.cl 2 3 ∧ (s4.cl.node 2).log[2]? = some (ce 2 cn) := by
  unfold AnsweredOk Asked Cluster.LeadsC
  decide +kernel

/-- A step of the leader that appends data. -/
example : (fstep P c3 s0 (.srv (.apply 1 [7, 8]) (fun _ => true))).map (fun s => (s.cl.node 1).log) =
    some [ce 2 c3, ⟨2, .data 7⟩, ⟨2, .data 8⟩] := by decide +kernel

/-- A closure whose entry has committed and that has not run. -/
example : (afterF P c3 s1 (repl 1 1 1 [ce 2 cj])).fate 1 = [(2, some true)] := by decide +kernel

end Braft.Props.ConfNode
