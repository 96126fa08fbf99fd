import Verif.LeaseRaft
/-
Coupling of the timed and the Raft part of Verif/LeaseRaft.lean, and `Compat` derived from it.
-/
set_option linter.unusedVariables false
set_option linter.unusedSimpArgs false
set_option linter.unusedSectionVars false

namespace Braft.LeaseRaft
open Braft

variable {N D : Type} [DecidableEq N] [DecidableEq D] {P : LeaseNet.Params N} {c0 : Raft.Conf N}

def roleOf : LeaseNet.Role → Raft.Role
  | .follower => .follower
  | .candidate => .candidate
  | .leader => .leader
  | .transferring => .leader

/-- The two parts of a node agree. -/
structure NC (n : Raft.NodeSt N D) (m : LeaseNet.Nd N) : Prop where
  term : m.term = n.term
  vote : m.vote = n.vote
  pterm : m.pterm = n.pterm
  pvote : m.pvote = n.pvote
  elect : m.elect = n.elect
  role : roleOf m.role = n.role
  sent : n.role = .candidate → m.sent = n.ready

/-- A leader's configurations, as the timed part knows them, are those of its log. -/
structure LC (c0 : Raft.Conf N) (cs : List (Raft.Log N D)) (n : Raft.NodeSt N D) (m : LeaseNet.Nd N) : Prop where
  nr : m.ready = false → m.cu = none ∧ m.cc = Raft.confOf c0 n.log ∧ n.commit < Raft.lastConfIdx n.log ∧
    ∀ k, Raft.termAt n.log k = n.term → Raft.lastConfIdx n.log ≤ k
  rd : m.ready = true → n.log.take n.commit ∈ cs ∧ Raft.lastTerm (n.log.take n.commit) = n.term ∧
    m.cc = Raft.confOf c0 (n.log.take n.commit)
  no : m.ready = true → m.cu = none → Raft.lastConfIdx n.log ≤ n.commit
  so : m.ready = true → ∀ c, m.cu = some c → n.commit < Raft.lastConfIdx n.log ∧ Raft.confOf c0 n.log = c ∧
    ∀ k, n.commit ≤ k → k < Raft.lastConfIdx n.log → Raft.confOf c0 (n.log.take k) = m.cc
  cm : ∀ K ∈ cs, Raft.lastTerm K = n.term → K.length ≤ n.commit

/-- `v` has handled an AppendEntries of term `T` that ended at `u` or later. -/
def Backed (j : J N D) (T : Nat) (v : N) (u : Nat) : Prop :=
  ∃ a : AeR N D, (a, v) ∈ j.recs ∧ a.t = T ∧ u ≤ a.prev + a.es.length

/-- Node `v` won term `T`. -/
def WonR (g : Raft.Glob N D) (T : Nat) (v : N) : Prop := ∃ e ∈ g.elections, e.term = T ∧ e.node = v

structure JI (c0 : Raft.Conf N) (j : J N D) : Prop where
  nc : ∀ i, NC (j.r.node i) (j.l.nd i)
  lc : ∀ i, (j.r.node i).role = .leader → LC c0 j.r.g.commits (j.r.node i) (j.l.nd i)
  ap : ∀ i, (j.l.nd i).ll.term ≠ 0 → (j.l.nd i).ll.ts ≠ 0 →
    Raft.lastTerm ((j.r.node i).log.take (j.r.node i).applied) = (j.r.node i).term
  cuc : ∀ i, (j.l.nd i).cuAt ≤ j.l.clk i
  won : ∀ T v, (T, v) ∈ j.l.won ↔ WonR j.r.g T v
  wc : ∀ e ∈ j.r.g.elections, j.l.wconf e.term = Raft.confOf c0 e.log
  aem : ∀ a ∈ j.aes, LeaseNet.Msg.ae a.t a.x a.at_ ∈ j.l.msgs
  aeb : ∀ a ∈ j.aes, (j.r.node a.x).role = .leader → (j.r.node a.x).term = a.t →
    a.prev + a.es.length ≤ (j.r.node a.x).log.length ∧
    ((j.l.nd a.x).cu ≠ none → a.at_ < (j.l.nd a.x).cuAt → a.prev + a.es.length < Raft.lastConfIdx (j.r.node a.x).log)
  rc : ∀ p ∈ j.recs, p.1 ∈ j.aes ∧ ∃ r ∈ j.l.recv, r.t = p.1.t ∧ r.p = p.2 ∧ r.x = p.1.x ∧ r.at_ = p.1.at_
  qf : ∀ i t m c, Raft.Op.ackF t m c ∈ (j.r.node i).queue → Backed j t i m.length
  ar : ∀ T v u, Raft.Msg.ar T v u ∈ j.r.g.msgs → WonR j.r.g T v ∨ Backed j T v u

/-! ### Elections and configurations -/

theorem elec_unique {g : Raft.Glob N D} (h : Raft.GInv c0 g) {r r' : Raft.Elec N D}
    (hr : r ∈ g.elections) (hr' : r' ∈ g.elections) (ht : r.term = r'.term) : r = r' := by
  have hp := h.euniq
  rw [List.pairwise_iff_getElem] at hp
  obtain ⟨a, ha, hra⟩ := List.getElem_of_mem hr
  obtain ⟨b, hb, hrb⟩ := List.getElem_of_mem hr'
  rcases Nat.lt_trichotomy a b with hab | hab | hab
  · have := hp a b ha hb hab
    rw [hra, hrb] at this; exact absurd ht this
  · subst hab; rw [← hra, ← hrb]
  · have := hp b a hb ha hab
    rw [hra, hrb] at this; exact absurd ht.symm this

theorem leads_iff {m : LeaseNet.Nd N} {T : Nat} : LeaseNet.leads m T = true ↔ roleOf m.role = .leader ∧ m.term = T := by
  unfold LeaseNet.leads
  cases m.role <;> simp [roleOf]

theorem take_confOf {l : Raft.Log N D} {k : Nat} (h : Raft.lastConfIdx l ≤ k) : Raft.confOf c0 (l.take k) = Raft.confOf c0 l :=
  Raft.confOf_const c0 l (l.take k) (List.take_prefix_take_left h) (List.take_prefix _ _)

/-- What the lease model assumes of Raft holds in the joint model. -/
theorem JI.compat {j : J N D} (h : JI c0 j) (hI : Raft.Inv c0 j.r) : LeaseNet.Compat j.l := by
  refine ⟨fun w hw w' hw' ht => ?_, fun w hw hl hr w' hw' hlt hmin => ?_⟩
  · obtain ⟨T, v⟩ := w
    obtain ⟨T', v'⟩ := w'
    obtain ⟨e, he, h1, h2⟩ := (h.won T v).mp hw
    obtain ⟨e', he', h1', h2'⟩ := (h.won T' v').mp hw'
    dsimp only at ht
    have := elec_unique hI.g he he' (by omega)
    subst this
    rw [← h1, ← h2, ← h1', ← h2']
  · obtain ⟨T, v⟩ := w
    obtain ⟨T', v'⟩ := w'
    dsimp only at hl hr hlt hmin ⊢
    obtain ⟨e', he', h1', h2'⟩ := (h.won T' v').mp hw'
    rw [leads_iff, (h.nc v).role, (h.nc v).term] at hl
    have hL := h.lc v hl.1
    obtain ⟨hK, hKt, hcc⟩ := hL.rd hr
    have hn := hI.n v
    -- the new leader's log holds what this leader has committed
    have hpre : (j.r.node v).log.take (j.r.node v).commit <+: e'.log := hI.g.lc hK he' (by omega)
    have hpos : 0 < (j.r.node v).term := Raft.leader_term_pos hI.g.toGBase hn hl.1
    have hne : e'.log ≠ [] := by
      intro h0
      rw [h0] at hpre
      rw [List.prefix_nil.mp hpre] at hKt
      have : Raft.lastTerm ([] : Raft.Log N D) = 0 := rfl
      omega
    -- it ends in an entry of this leader's term
    obtain ⟨J, hJ, hJ'⟩ := List.getElem_of_mem he'
    obtain ⟨hcr, r', hr', ho⟩ := hI.g.elog J e' (by rw [List.getElem?_eq_getElem hJ, hJ']) e'.log hne (List.prefix_refl _)
    have hlt' := hI.g.elt e' he'
    have hge := hI.g.mono _ hcr _ hpre
    have hr'' : (r'.term, r'.node) ∈ j.l.won := (h.won _ _).mpr ⟨r', List.mem_of_mem_take hr', rfl, rfl⟩
    have hT : Raft.lastTerm e'.log = (j.r.node v).term := by
      refine Classical.byContradiction fun hc => ?_
      have := hmin _ hr'' (by show T < r'.term; rw [← ho.term]; omega)
      have h9 := ho.term
      dsimp only at this
      omega
    have hpl : e'.log <+: (j.r.node v).log := (hn.lead hl.1).1 _ hcr hT
    have hlen := hpre.length_le
    rw [List.length_take, Nat.min_eq_left hn.cl] at hlen
    have hwc : j.l.wconf T' = Raft.confOf c0 ((j.r.node v).log.take e'.log.length) := by
      rw [← h1', h.wc e' he', ← Raft.prefix_take hpl]
    rw [hwc]
    cases hcu : (j.l.nd v).cu with
    | none =>
      left
      have := hL.no hr hcu
      rw [hcc, take_confOf (by omega), take_confOf this]
    | some c =>
      obtain ⟨h3, h4, h5⟩ := hL.so hr c hcu
      by_cases hk : e'.log.length < Raft.lastConfIdx (j.r.node v).log
      · left; exact h5 _ hlen hk
      · right
        rw [take_confOf (by omega), h4]

/-! ### Steps of one node -/

theorem LC.same {cs : List (Raft.Log N D)} {n n' : Raft.NodeSt N D} {m m' : LeaseNet.Nd N} (h : LC c0 cs n m)
    (h1 : n'.term = n.term) (h2 : n'.log = n.log) (h3 : n'.commit = n.commit) (h4 : m'.ready = m.ready) (h5 : m'.cc = m.cc)
    (h6 : m'.cu = m.cu) : LC c0 cs n' m' where
  nr := by rw [h1, h2, h3, h4, h5, h6]; exact h.nr
  rd := by rw [h1, h2, h3, h4, h5]; exact h.rd
  no := by rw [h2, h3, h4, h6]; exact h.no
  so := by rw [h2, h3, h4, h5, h6]; exact h.so
  cm := by rw [h1, h3]; exact h.cm

/-- What two states share when only node `i` did something other than winning, proposing, committing or sending
entries. -/
structure Upd (j j' : J N D) (i : N) : Prop where
  rn : ∀ k, k ≠ i → j'.r.node k = j.r.node k
  ln : ∀ k, k ≠ i → j'.l.nd k = j.l.nd k
  com : j'.r.g.commits = j.r.g.commits
  ele : j'.r.g.elections = j.r.g.elections
  won : j'.l.won = j.l.won
  wcf : j'.l.wconf = j.l.wconf
  clk : ∀ k, j.l.clk k ≤ j'.l.clk k
  aes : j'.aes = j.aes
  recs : ∀ p ∈ j.recs, p ∈ j'.recs
  recn : ∀ p ∈ j'.recs, p ∈ j.recs ∨
    (p.1 ∈ j.aes ∧ ∃ r ∈ j'.l.recv, r.t = p.1.t ∧ r.p = p.2 ∧ r.x = p.1.x ∧ r.at_ = p.1.at_)
  lm : ∀ m ∈ j.l.msgs, m ∈ j'.l.msgs
  lr : ∀ r ∈ j.l.recv, r ∈ j'.l.recv
  nc : NC (j'.r.node i) (j'.l.nd i)
  ld : (j'.r.node i).role = .leader → (j.r.node i).role = .leader ∧ (j'.r.node i).term = (j.r.node i).term ∧
    (j'.r.node i).log = (j.r.node i).log ∧ (j'.r.node i).commit = (j.r.node i).commit ∧
    (j'.l.nd i).ready = (j.l.nd i).ready ∧ (j'.l.nd i).cc = (j.l.nd i).cc ∧ (j'.l.nd i).cu = (j.l.nd i).cu ∧
    (j'.l.nd i).cuAt = (j.l.nd i).cuAt
  ap : (j'.l.nd i).ll.term ≠ 0 → (j'.l.nd i).ll.ts ≠ 0 →
    Raft.lastTerm ((j'.r.node i).log.take (j'.r.node i).applied) = (j'.r.node i).term
  cuc : (j'.l.nd i).cuAt ≤ j'.l.clk i
  qf : ∀ t m c, Raft.Op.ackF t m c ∈ (j'.r.node i).queue → Raft.Op.ackF t m c ∈ (j.r.node i).queue ∨ Backed j' t i m.length
  ar : ∀ T v u, Raft.Msg.ar T v u ∈ j'.r.g.msgs → Raft.Msg.ar T v u ∈ j.r.g.msgs ∨ WonR j.r.g T v ∨ Backed j' T v u

theorem Backed.mono {j j' : J N D} (h : ∀ p ∈ j.recs, p ∈ j'.recs) {T : Nat} {v : N} {u : Nat} (hb : Backed j T v u) :
    Backed j' T v u := by
  obtain ⟨a, h1, h2⟩ := hb
  exact ⟨a, h _ h1, h2⟩

theorem JI.upd {j j' : J N D} (h : JI c0 j) {i : N} (u : Upd j j' i) : JI c0 j' where
  nc := fun k => by
    by_cases hk : k = i
    · subst hk; exact u.nc
    · rw [u.rn k hk, u.ln k hk]; exact h.nc k
  lc := fun k hr => by
    rw [u.com]
    by_cases hk : k = i
    · subst hk
      obtain ⟨h1, h2, h3, h4, h5, h6, h7, _⟩ := u.ld hr
      exact (h.lc k h1).same h2 h3 h4 h5 h6 h7
    · rw [u.rn k hk] at hr ⊢; rw [u.ln k hk]; exact h.lc k hr
  ap := fun k => by
    by_cases hk : k = i
    · subst hk; exact u.ap
    · rw [u.rn k hk, u.ln k hk]; exact h.ap k
  cuc := fun k => by
    by_cases hk : k = i
    · subst hk; exact u.cuc
    · rw [u.ln k hk]; exact Nat.le_trans (h.cuc k) (u.clk k)
  won := by rw [u.won]; unfold WonR; rw [u.ele]; exact h.won
  wc := by rw [u.ele, u.wcf]; exact h.wc
  aem := fun a ha => u.lm _ (h.aem a (u.aes ▸ ha))
  aeb := fun a ha hr ht => by
    rw [u.aes] at ha
    by_cases hk : a.x = i
    · rw [hk] at hr ht ⊢
      obtain ⟨h1, h2, h3, _, _, _, h7, h8⟩ := u.ld hr
      rw [h3, h7, h8]
      have := h.aeb a ha (by rw [hk]; exact h1) (by rw [hk, ← h2]; exact ht)
      rw [hk] at this; exact this
    · rw [u.rn _ hk] at hr ht ⊢; rw [u.ln _ hk]; exact h.aeb a ha hr ht
  rc := fun p hp => by
    rcases u.recn p hp with h1 | h1
    · obtain ⟨h2, r, h3, h4⟩ := h.rc p h1
      exact ⟨u.aes ▸ h2, r, u.lr r h3, h4⟩
    · exact ⟨u.aes ▸ h1.1, h1.2⟩
  qf := fun k t m c hm => by
    by_cases hk : k = i
    · subst hk
      rcases u.qf t m c hm with h1 | h1
      · exact (h.qf k t m c h1).mono u.recs
      · exact h1
    · rw [u.rn k hk] at hm
      exact (h.qf k t m c hm).mono u.recs
  ar := fun T v w hm => by
    unfold WonR; rw [u.ele]
    rcases u.ar T v w hm with h1 | h1 | h1
    · rcases h.ar T v w h1 with h2 | h2
      · exact Or.inl h2
      · exact Or.inr (h2.mono u.recs)
    · exact Or.inl h1
    · exact Or.inr h1

end Braft.LeaseRaft
