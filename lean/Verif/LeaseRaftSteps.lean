import Verif.LeaseRaftInv
/-
The coupling invariant of Verif/LeaseRaftInv.lean is kept by every event.
-/
set_option linter.unusedVariables false
set_option linter.unusedSimpArgs false
set_option linter.unusedSectionVars false

namespace Braft.LeaseRaft
open Braft

variable {N D : Type} [DecidableEq N] [DecidableEq D] {P : LeaseNet.Params N} {c0 : Raft.Conf N}

/-- What an event of the timed part alone leaves as it is. -/
structure LSame (m m' : LeaseNet.Nd N) : Prop where
  term : m'.term = m.term
  vote : m'.vote = m.vote
  pterm : m'.pterm = m.pterm
  pvote : m'.pvote = m.pvote
  elect : m'.elect = m.elect
  sent : m'.sent = m.sent
  role : roleOf m'.role = roleOf m.role
  ready : m'.ready = m.ready
  cc : m'.cc = m.cc
  cu : m'.cu = m.cu
  cuAt : m'.cuAt = m.cuAt

theorem LSame.refl (m : LeaseNet.Nd N) : LSame m m := ⟨rfl, rfl, rfl, rfl, rfl, rfl, rfl, rfl, rfl, rfl, rfl⟩

structure LLocal (s s' : LeaseNet.St N) (i : N) (b : Bool) : Prop where
  nd : ∀ k, k ≠ i → s'.nd k = s.nd k
  sm : LSame (s.nd i) (s'.nd i)
  won : s'.won = s.won
  wcf : s'.wconf = s.wconf
  clk : ∀ k, s.clk k ≤ s'.clk k
  msgs : ∀ m ∈ s.msgs, m ∈ s'.msgs
  recv : s'.recv = s.recv
  ll : b = false → (s'.nd i).ll.term ≠ 0 → (s'.nd i).ll.ts ≠ 0 → (s.nd i).ll.term ≠ 0 ∧ (s.nd i).ll.ts ≠ 0

theorem llocal_set {s : LeaseNet.St N} {i : N} {m' : LeaseNet.Nd N} {b : Bool} (h : LSame (s.nd i) m')
    (hl : b = false → m'.ll.term ≠ 0 → m'.ll.ts ≠ 0 → (s.nd i).ll.term ≠ 0 ∧ (s.nd i).ll.ts ≠ 0)
    {ms : List (LeaseNet.Msg N)} (hms : ∀ m ∈ s.msgs, m ∈ ms) :
    LLocal s { LeaseNet.setNd s i m' with msgs := ms } i b where
  nd := fun k hk => LeaseNet.updF_other _ _ hk
  sm := by show LSame (s.nd i) (LeaseNet.updF s.nd i m' i); rw [LeaseNet.updF_same]; exact h
  won := rfl
  wcf := rfl
  clk := fun _ => Nat.le_refl _
  msgs := hms
  recv := rfl
  ll := by
    show b = false → (LeaseNet.updF s.nd i m' i).ll.term ≠ 0 → (LeaseNet.updF s.nd i m' i).ll.ts ≠ 0 → _
    rw [LeaseNet.updF_same]; exact hl

theorem llocal_set' {s : LeaseNet.St N} {i : N} {m' : LeaseNet.Nd N} {b : Bool} (h : LSame (s.nd i) m')
    (hl : b = false → m'.ll.term ≠ 0 → m'.ll.ts ≠ 0 → (s.nd i).ll.term ≠ 0 ∧ (s.nd i).ll.ts ≠ 0) :
    LLocal s (LeaseNet.setNd s i m') i b := llocal_set h hl (fun _ h => h)

/-- The node an event of the timed part concerns. -/
def nodeOf (d : N) : LeaseNet.Act N → N
  | .setLeader i _ | .grantSelf i | .grantSelfByLeader i _ _ | .retry i _ _ | .voteExpire i _ _ _ _ | .ackAE i _ _ _
  | .recvAck i _ _ | .startRepl i _ | .leaseStart i _ | .renew i | .transfer i | .transferTimeout i | .retime i _
  | .retime2 i _ _ => i
  | _ => d

def isStart : LeaseNet.Act N → Bool
  | .leaseStart _ _ => true
  | _ => false

theorem info_suspect {l : Lease.Leader} {now : Nat} (h : l.info true now = .suspect) : l.term ≠ 0 ∧ l.ts ≠ 0 := by
  unfold Lease.Leader.info at h
  simp only [Bool.not_true, Bool.false_eq_true, if_false] at h
  by_cases h1 : l.term = 0
  · rw [if_pos h1] at h; cases h
  by_cases h2 : l.ts = 0
  · rw [if_neg h1, if_pos h2] at h; cases h
  exact ⟨h1, h2⟩

theorem lease_local {s : LeaseNet.St N} {a : LeaseNet.Act N} (d : N) (hl : leaseLocal a = true) (hp : LeaseNet.pre P s a) :
    LLocal s (LeaseNet.eff P s a) (nodeOf d a) (isStart a) := by
  cases a <;> try cases hl
  case tick v => exact ⟨fun _ _ => rfl, LSame.refl _, rfl, rfl, hp.1, fun _ h => h, rfl, fun _ h1 h2 => ⟨h1, h2⟩⟩
  case setLeader i y => exact llocal_set' (s := s) (i := i) ⟨rfl, rfl, rfl, rfl, rfl, rfl, rfl, rfl, rfl, rfl, rfl⟩ (fun _ h1 h2 => ⟨h1, h2⟩)
  case grantSelf i => exact llocal_set' (s := s) (i := i) ⟨rfl, rfl, rfl, rfl, rfl, rfl, rfl, rfl, rfl, rfl, rfl⟩ (fun _ h1 h2 => ⟨h1, h2⟩)
  case grantSelfByLeader i y dt =>
    exact llocal_set' (s := s) (i := i) ⟨rfl, rfl, rfl, rfl, rfl, rfl, rfl, rfl, rfl, rfl, rfl⟩ (fun _ h1 h2 => ⟨h1, h2⟩)
  case retry i y dt =>
    exact llocal_set (s := s) (i := i) (m' := { s.nd i with dis := some (some y, dt) }) ⟨rfl, rfl, rfl, rfl, rfl, rfl, rfl, rfl, rfl, rfl, rfl⟩ (fun _ h1 h2 => ⟨h1, h2⟩)
      (fun _ h => List.mem_cons_of_mem _ h)
  case voteExpire i t c d dt =>
    exact llocal_set' (s := s) (i := i) ⟨rfl, rfl, rfl, rfl, rfl, rfl, rfl, rfl, rfl, rfl, rfl⟩ (fun _ h1 h2 => ⟨h1, h2⟩)
  case ackAE i t x a =>
    exact ⟨fun _ _ => rfl, LSame.refl _, rfl, rfl, fun _ => Nat.le_refl _, fun _ h => List.mem_cons_of_mem _ h, rfl,
      fun _ h1 h2 => ⟨h1, h2⟩⟩
  case recvAck i p a => exact llocal_set' (s := s) (i := i) ⟨rfl, rfl, rfl, rfl, rfl, rfl, rfl, rfl, rfl, rfl, rfl⟩ (fun _ h1 h2 => ⟨h1, h2⟩)
  case startRepl i p => exact llocal_set' (s := s) (i := i) ⟨rfl, rfl, rfl, rfl, rfl, rfl, rfl, rfl, rfl, rfl, rfl⟩ (fun _ h1 h2 => ⟨h1, h2⟩)
  case leaseStart i e => exact llocal_set' (s := s) (i := i) ⟨rfl, rfl, rfl, rfl, rfl, rfl, rfl, rfl, rfl, rfl, rfl⟩ (fun h => nomatch h)
  case renew i =>
    exact llocal_set' (s := s) (i := i) ⟨rfl, rfl, rfl, rfl, rfl, rfl, rfl, rfl, rfl, rfl, rfl⟩ (fun _ _ _ => info_suspect hp.2.1)
  case transfer i =>
    exact llocal_set' (s := s) (i := i) ⟨rfl, rfl, rfl, rfl, rfl, rfl, by rw [hp.1]; rfl, rfl, rfl, rfl, rfl⟩ (fun _ h1 _ => absurd rfl h1)
  case transferTimeout i =>
    exact llocal_set' (s := s) (i := i) ⟨rfl, rfl, rfl, rfl, rfl, rfl, by rw [hp]; rfl, rfl, rfl, rfl, rfl⟩ (fun _ _ h2 => absurd rfl h2)
  case retime i t =>
    refine llocal_set' (s := s) (i := i) ?_ ?_
    · unfold LeaseNet.retime; split <;> exact ⟨rfl, rfl, rfl, rfl, rfl, rfl, rfl, rfl, rfl, rfl, rfl⟩
    · unfold LeaseNet.retime; split <;> exact fun _ h1 h2 => ⟨h1, h2⟩
  case retime2 i t d =>
    refine llocal_set' (s := s) (i := i) ?_ ?_
    · unfold LeaseNet.retime; split <;> exact ⟨rfl, rfl, rfl, rfl, rfl, rfl, rfl, rfl, rfl, rfl, rfl⟩
    · unfold LeaseNet.retime; split <;> exact fun _ h1 h2 => ⟨h1, h2⟩

theorem NC.same {n : Raft.NodeSt N D} {m m' : LeaseNet.Nd N} (h : NC n m) (hs : LSame m m') : NC n m' where
  term := hs.term.trans h.term
  vote := hs.vote.trans h.vote
  pterm := hs.pterm.trans h.pterm
  pvote := hs.pvote.trans h.pvote
  elect := hs.elect.trans h.elect
  role := hs.role.trans h.role
  sent := fun hr => hs.sent.trans (h.sent hr)

theorem ji_lease {j : J N D} (h : JI c0 j) {a : LeaseNet.Act N} (d : N) (hm : more P c0 j (.lease a)) :
    JI c0 (eff P c0 j (.lease a)) := by
  obtain ⟨hl, hp, hx⟩ := hm
  have L := lease_local d hl hp
  have hst : isStart a = true → Raft.lastTerm ((j.r.node (nodeOf d a)).log.take (j.r.node (nodeOf d a)).applied) =
      (j.r.node (nodeOf d a)).term := by
    intro hs
    cases a <;> try cases hs
    exact hx
  generalize nodeOf d a = i at L hst
  refine h.upd (i := i) ?_
  exact {
    rn := fun _ _ => rfl
    ln := L.nd
    com := rfl
    ele := rfl
    won := L.won
    wcf := L.wcf
    clk := L.clk
    aes := rfl
    recs := fun _ h => h
    recn := fun _ h => Or.inl h
    lm := L.msgs
    lr := fun r hr => by show r ∈ (LeaseNet.eff P j.l a).recv; rw [L.recv]; exact hr
    nc := (h.nc i).same L.sm
    ld := fun hr => ⟨hr, rfl, rfl, rfl, L.sm.ready, L.sm.cc, L.sm.cu, L.sm.cuAt⟩
    ap := fun h1 h2 => by
      cases hb : isStart a with
      | true => exact hst hb
      | false =>
        rw [hb] at L
        obtain ⟨h3, h4⟩ := L.ll rfl h1 h2
        exact h.ap i h3 h4
    cuc := by
      show ((LeaseNet.eff P j.l a).nd i).cuAt ≤ _
      rw [L.sm.cuAt]; exact Nat.le_trans (h.cuc i) (L.clk i)
    qf := fun _ _ _ h => Or.inl h
    ar := fun _ _ _ h => Or.inl h }

/-! ### Events of the Raft part alone -/

theorem take_term_mono {s : Raft.Sys N D} (hI : Raft.Inv c0 s) {i : N} (hr : (s.node i).role = .leader) {a b : Nat}
    (h : Raft.lastTerm ((s.node i).log.take a) = (s.node i).term) (hab : a ≤ b) :
    Raft.lastTerm ((s.node i).log.take b) = (s.node i).term := by
  have hn := hI.n i
  have hpos := Raft.leader_term_pos hI.g.toGBase hn hr
  have hl := (hI.own i hr).2
  have hne : (s.node i).log ≠ [] := by
    intro h0; rw [h0] at hl
    have : Raft.lastTerm ([] : Raft.Log N D) = 0 := rfl
    omega
  have hc := hn.glog.1 _ hne (List.prefix_refl _)
  have h1 := hI.g.mono _ hc _ (List.take_prefix b _)
  have hne' : (s.node i).log.take b ≠ [] := by
    intro h0
    have : (s.node i).log.take a = [] := by
      have := List.take_prefix_take_left (l := (s.node i).log) hab
      rw [h0] at this
      exact List.prefix_nil.mp this
    rw [this] at h
    have : Raft.lastTerm ([] : Raft.Log N D) = 0 := rfl
    omega
  have h2 := hI.g.mono _ (hn.glog.1 _ hne' (List.take_prefix _ _)) _ (List.take_prefix_take_left (l := (s.node i).log) hab)
  omega

/-- What an event of the Raft part alone leaves as it is. -/
structure RSame (n n' : Raft.NodeSt N D) : Prop where
  term : n'.term = n.term
  vote : n'.vote = n.vote
  pterm : n'.pterm = n.pterm
  pvote : n'.pvote = n.pvote
  elect : n'.elect = n.elect
  role : n'.role = n.role
  ready : n'.ready = n.ready
  lead : n.role = .leader → n'.log = n.log ∧ n'.commit = n.commit ∧ n.applied ≤ n'.applied
  qf : ∀ t m c, Raft.Op.ackF t m c ∈ n'.queue → Raft.Op.ackF t m c ∈ n.queue

theorem ll_lead {j : J N D} (h : JI c0 j) (hL : LeaseNet.Inv P j.l) {i : N} (hl : (j.l.nd i).ll.term ≠ 0) :
    (j.r.node i).role = .leader := by
  rw [← (h.nc i).role, ((hL.n i).lr hl).1]; rfl

theorem raft_upd {j : J N D} (h : JI c0 j) (hI : Raft.Inv c0 j.r) (hL : LeaseNet.Inv P j.l) {i : N} {n' : Raft.NodeSt N D}
    {g' : Raft.Glob N D} (hs : RSame (j.r.node i) n') (hc : g'.commits = j.r.g.commits) (he : g'.elections = j.r.g.elections)
    (ha : ∀ T v u, Raft.Msg.ar T v u ∈ g'.msgs → Raft.Msg.ar T v u ∈ j.r.g.msgs ∨ WonR j.r.g T v ∨ Backed j T v u) :
    JI c0 ⟨⟨Raft.updF j.r.node i n', g'⟩, j.l, j.aes, j.recs⟩ := by
  refine h.upd (i := i) ?_
  have hnode : Raft.updF j.r.node i n' i = n' := by simp [Raft.updF]
  exact {
    rn := fun k hk => by simp [Raft.updF, hk]
    ln := fun _ _ => rfl
    com := hc
    ele := he
    won := rfl
    wcf := rfl
    clk := fun _ => Nat.le_refl _
    aes := rfl
    recs := fun _ h => h
    recn := fun _ h => Or.inl h
    lm := fun _ h => h
    lr := fun _ h => h
    nc := by
      dsimp only
      rw [hnode]
      have := h.nc i
      exact ⟨by rw [hs.term]; exact this.term, by rw [hs.vote]; exact this.vote, by rw [hs.pterm]; exact this.pterm,
        by rw [hs.pvote]; exact this.pvote, by rw [hs.elect]; exact this.elect, by rw [hs.role]; exact this.role,
        by rw [hs.role, hs.ready]; exact this.sent⟩
    ld := by
      dsimp only
      rw [hnode]
      intro hr
      rw [hs.role] at hr
      obtain ⟨h1, h2, _⟩ := hs.lead hr
      exact ⟨hr, hs.term, h1, h2, rfl, rfl, rfl, rfl⟩
    ap := by
      dsimp only
      rw [hnode]
      intro h1 h2
      have hr := ll_lead h hL h1
      obtain ⟨h3, _, h4⟩ := hs.lead hr
      rw [h3, hs.term]
      exact take_term_mono hI hr (h.ap i h1 h2) h4
    cuc := h.cuc i
    qf := by
      dsimp only
      rw [hnode]
      exact fun t m c hm => Or.inl (hs.qf t m c hm)
    ar := ha }

/-- The disk queue. -/
theorem ji_disk {j : J N D} (h : JI c0 j) (hI : Raft.Inv c0 j.r) (hL : LeaseNet.Inv P j.l) (i : N) :
    JI c0 ⟨Raft.diskStep j.r i, j.l, j.aes, j.recs⟩ := by
  unfold Raft.diskStep
  dsimp only
  cases hq : (j.r.node i).queue with
  | nil => exact h
  | cons op q =>
    dsimp only
    have hsub : ∀ t m c, Raft.Op.ackF t m c ∈ q → Raft.Op.ackF t m c ∈ (j.r.node i).queue := by
      intro t m c hm; rw [hq]; exact List.mem_cons_of_mem _ hm
    cases op with
    | push e =>
      exact raft_upd h hI hL ⟨rfl, rfl, rfl, rfl, rfl, rfl, rfl, fun _ => ⟨rfl, rfl, Nat.le_refl _⟩, hsub⟩ rfl rfl
        (fun _ _ _ h => Or.inl h)
    | pop =>
      exact raft_upd h hI hL ⟨rfl, rfl, rfl, rfl, rfl, rfl, rfl, fun _ => ⟨rfl, rfl, Nat.le_refl _⟩, hsub⟩ rfl rfl
        (fun _ _ _ h => Or.inl h)
    | snap K =>
      exact raft_upd h hI hL ⟨rfl, rfl, rfl, rfl, rfl, rfl, rfl, fun _ => ⟨rfl, rfl, Nat.le_refl _⟩, hsub⟩ rfl rfl
        (fun _ _ _ h => Or.inl h)
    | ackF t m c =>
      dsimp only
      split
      · next ht =>
        refine raft_upd h hI hL ⟨rfl, rfl, rfl, rfl, rfl, rfl, rfl, fun hr => ⟨rfl, ?_, Nat.le_refl _⟩, hsub⟩ rfl rfl ?_
        · exact if_pos hr
        · intro T v u hm
          rcases List.mem_cons.mp hm with h1 | h1
          · injection h1 with h1 h2 h3
            subst h1; subst h2; subst h3
            exact Or.inr (Or.inr (h.qf _ _ m c (by rw [hq]; exact List.mem_cons_self)))
          · exact Or.inl h1
      · exact raft_upd h hI hL ⟨rfl, rfl, rfl, rfl, rfl, rfl, rfl, fun _ => ⟨rfl, rfl, Nat.le_refl _⟩, hsub⟩ rfl rfl
          (fun _ _ _ h => Or.inl h)
    | ackL m =>
      dsimp only
      split
      · next hr =>
        refine raft_upd h hI hL ⟨rfl, rfl, rfl, rfl, rfl, rfl, rfl, fun hr => ⟨rfl, rfl, Nat.le_refl _⟩, hsub⟩ rfl rfl ?_
        intro T v u hm
        rcases List.mem_cons.mp hm with h1 | h1
        · injection h1 with h1 h2 h3
          subst h1; subst h2; subst h3
          obtain ⟨_, r, h2, h3, h4, _⟩ := (hI.n v).lead hr
          exact Or.inr (Or.inl ⟨r, h2, h4, h3⟩)
        · exact Or.inl h1
      · exact raft_upd h hI hL ⟨rfl, rfl, rfl, rfl, rfl, rfl, rfl, fun _ => ⟨rfl, rfl, Nat.le_refl _⟩, hsub⟩ rfl rfl
          (fun _ _ _ h => Or.inl h)

/-! ### A leader's log grows -/

theorem take_app {l es : Raft.Log N D} {k : Nat} (h : k ≤ l.length) : (l ++ es).take k = l.take k :=
  List.take_append_of_le_length h

/-- Entries proposed. -/
theorem ji_propose {j : J N D} (h : JI c0 j) (hI : Raft.Inv c0 j.r) (hL : LeaseNet.Inv P j.l) {i : N}
    (hr : (j.r.node i).role = .leader) {es : Raft.Log N D} (hes : ∀ e ∈ es, e.conf? = none) :
    JI c0 ⟨Raft.sysAppend j.r i es, j.l, j.aes, j.recs⟩ := by
  have hn := hI.n i
  have hli := Raft.lastConfIdx_datas (l := (j.r.node i).log) hes
  have hle := Raft.lastConfIdx_le (j.r.node i).log
  have hnode : ∀ k, k ≠ i → (Raft.sysAppend j.r i es).node k = j.r.node k := fun k hk => by simp [Raft.sysAppend, Raft.updF, hk]
  have hi : (Raft.sysAppend j.r i es).node i = Raft.appendOwn (j.r.node i) es := by simp [Raft.sysAppend, Raft.updF]
  constructor
  · intro k
    dsimp only
    by_cases hk : k = i
    · subst hk; rw [hi]
      have := h.nc k
      exact ⟨this.term, this.vote, this.pterm, this.pvote, this.elect, this.role, this.sent⟩
    · rw [hnode k hk]; exact h.nc k
  · intro k
    dsimp only
    by_cases hk : k = i
    · subst hk; rw [hi]
      intro _
      have hc := h.lc k hr
      exact {
        nr := fun hd => by
          obtain ⟨h1, h2, h3, h4⟩ := hc.nr hd
          refine ⟨h1, ?_, ?_, ?_⟩
          · show _ = Raft.confOf c0 ((j.r.node k).log ++ es)
            rw [Raft.confOf_datas c0 hes]; exact h2
          · show _ < Raft.lastConfIdx ((j.r.node k).log ++ es)
            rw [hli]; exact h3
          · show ∀ m, Raft.termAt ((j.r.node k).log ++ es) m = _ → Raft.lastConfIdx ((j.r.node k).log ++ es) ≤ m
            intro m hm
            rw [hli]
            by_cases hml : m ≤ (j.r.node k).log.length
            · refine h4 m ?_
              rw [Raft.termAt_take hml]
              rw [Raft.termAt_take (by rw [List.length_append]; omega), take_app hml] at hm
              exact hm
            · omega
        rd := fun hd => by
          show ((j.r.node k).log ++ es).take (j.r.node k).commit ∈ _ ∧
            Raft.lastTerm (((j.r.node k).log ++ es).take (j.r.node k).commit) = _ ∧
            _ = Raft.confOf c0 (((j.r.node k).log ++ es).take (j.r.node k).commit)
          rw [take_app hn.cl]; exact hc.rd hd
        no := fun hd hu => by
          show Raft.lastConfIdx ((j.r.node k).log ++ es) ≤ _
          rw [hli]; exact hc.no hd hu
        so := fun hd c hu => by
          obtain ⟨h1, h2, h3⟩ := hc.so hd c hu
          show _ < Raft.lastConfIdx ((j.r.node k).log ++ es) ∧ Raft.confOf c0 ((j.r.node k).log ++ es) = c ∧
            ∀ m, _ ≤ m → m < Raft.lastConfIdx ((j.r.node k).log ++ es) → Raft.confOf c0 (((j.r.node k).log ++ es).take m) = _
          rw [hli, Raft.confOf_datas c0 hes]
          refine ⟨h1, h2, fun m hm hm' => ?_⟩
          rw [take_app (by omega)]
          exact h3 m hm hm'
        cm := hc.cm }
    · rw [hnode k hk]; exact h.lc k
  · intro k
    dsimp only
    by_cases hk : k = i
    · subst hk; rw [hi]
      show _ → _ → Raft.lastTerm (((j.r.node k).log ++ es).take (j.r.node k).applied) = _
      rw [take_app hn.ap]; exact h.ap k
    · rw [hnode k hk]; exact h.ap k
  · exact h.cuc
  · exact h.won
  · exact h.wc
  · exact h.aem
  · intro a ha
    dsimp only
    by_cases hk : a.x = i
    · have := h.aeb a ha
      rw [hk] at this ⊢
      rw [hi]
      intro h1 h2
      obtain ⟨h3, h4⟩ := this h1 h2
      refine ⟨?_, ?_⟩
      · show _ ≤ ((j.r.node i).log ++ es).length
        rw [List.length_append]; omega
      · show _ → _ → _ < Raft.lastConfIdx ((j.r.node i).log ++ es)
        rw [hli]; exact h4
    · rw [hnode _ hk]; exact h.aeb a ha
  · exact h.rc
  · intro k t m c
    dsimp only
    by_cases hk : k = i
    · subst hk; rw [hi]
      intro hm
      have : Raft.Op.ackF t m c ∈ (j.r.node k).queue := by
        show Raft.Op.ackF t m c ∈ (j.r.node k).queue
        unfold Raft.appendOwn at hm
        dsimp only at hm
        simp only [List.mem_append, List.mem_map, List.mem_singleton] at hm
        rcases hm with (hm | ⟨e, _, hm⟩) | hm
        · exact hm
        · cases hm
        · cases hm
      exact h.qf k t m c this
    · rw [hnode k hk]; exact h.qf k t m c
  · exact h.ar

theorem ji_raft {j : J N D} (h : JI c0 j) (hI : Raft.Inv c0 j.r) (hL : LeaseNet.Inv P j.l) {a : Raft.Act N D}
    (hl : raftLocal a = true) (hp : Raft.pre norm c0 j.r a) : JI c0 (eff P c0 j (.raft a)) := by
  show JI c0 ⟨Raft.eff c0 j.r a, j.l, j.aes, j.recs⟩
  cases a <;> try cases hl
  case voteBegin i t cand claim =>
    exact raft_upd h hI hL ⟨rfl, rfl, rfl, rfl, rfl, rfl, rfl, fun _ => ⟨rfl, rfl, Nat.le_refl _⟩, fun _ _ _ h => h⟩ rfl rfl
      (fun _ _ _ h => Or.inl h)
  case voteDrop i f =>
    exact raft_upd h hI hL ⟨rfl, rfl, rfl, rfl, rfl, rfl, rfl, fun _ => ⟨rfl, rfl, Nat.le_refl _⟩, fun _ _ _ h => h⟩ rfl rfl
      (fun _ _ _ h => Or.inl h)
  case propose i ds =>
    refine ji_propose h hI hL hp.1 ?_
    intro e he
    obtain ⟨d, _, rfl⟩ := List.mem_map.mp he
    rfl
  case disk i => exact ji_disk h hI hL i
  case apply i =>
    exact raft_upd h hI hL ⟨rfl, rfl, rfl, rfl, rfl, rfl, rfl, fun _ => ⟨rfl, rfl, Nat.le_succ _⟩, fun _ _ _ h => h⟩ rfl rfl
      (fun _ _ _ h => Or.inl h)
  case saveSnap i k =>
    exact raft_upd h hI hL ⟨rfl, rfl, rfl, rfl, rfl, rfl, rfl, fun _ => ⟨rfl, rfl, Nat.le_refl _⟩, fun _ _ _ h => h⟩ rfl rfl
      (fun _ _ _ h => Or.inl h)
  case sendIS i =>
    have := raft_upd (g' := j.r.g.send (.is (j.r.node i).term (j.r.node i).psnap)) h hI hL (i := i) (n' := j.r.node i)
      ⟨rfl, rfl, rfl, rfl, rfl, rfl, rfl, fun _ => ⟨rfl, rfl, Nat.le_refl _⟩, fun _ _ _ h => h⟩ rfl rfl
      (fun T v u hm => by
        rcases List.mem_cons.mp hm with h1 | h1
        · cases h1
        · exact Or.inl h1)
    rw [Raft.updF_self] at this
    exact this
  case copied i =>
    exact raft_upd h hI hL ⟨rfl, rfl, rfl, rfl, rfl, rfl, rfl, fun _ => ⟨rfl, rfl, Nat.le_refl _⟩, fun _ _ _ h => h⟩ rfl rfl
      (fun _ _ _ h => Or.inl h)
  case loaded i =>
    have hnl : (j.r.node i).role ≠ .leader := by
      intro hr
      have := (hI.n i).dlf (by
        have hp' : (j.r.node i).dl = some (j.r.node i).psnap := hp
        rw [hp']; exact nofun)
      rw [this] at hr; cases hr
    refine raft_upd h hI hL ?_ rfl rfl (fun _ _ _ h => Or.inl h)
    unfold Raft.handleLoaded
    split
    · split
      · refine ⟨rfl, rfl, rfl, rfl, rfl, rfl, rfl, fun hr => absurd hr hnl, fun t m c hm => ?_⟩
        rcases List.mem_append.mp hm with h1 | h1
        · exact h1
        · simp at h1
      · exact ⟨rfl, rfl, rfl, rfl, rfl, rfl, rfl, fun hr => absurd hr hnl, fun _ _ _ h => h⟩
    · exact ⟨rfl, rfl, rfl, rfl, rfl, rfl, rfl, fun hr => absurd hr hnl, fun _ _ _ h => h⟩
  case dlDrop i =>
    exact raft_upd h hI hL ⟨rfl, rfl, rfl, rfl, rfl, rfl, rfl, fun _ => ⟨rfl, rfl, Nat.le_refl _⟩, fun _ _ _ h => h⟩ rfl rfl
      (fun _ _ _ h => Or.inl h)

/-! ### Events of a leader -/

theorem LC.mono {cs cs' : List (Raft.Log N D)} {n : Raft.NodeSt N D} {m : LeaseNet.Nd N} (h : LC c0 cs n m)
    (h1 : ∀ K ∈ cs, K ∈ cs') (h2 : ∀ K ∈ cs', K ∈ cs ∨ Raft.lastTerm K ≠ n.term) : LC c0 cs' n m where
  nr := h.nr
  rd := fun hr => ⟨h1 _ (h.rd hr).1, (h.rd hr).2⟩
  no := h.no
  so := h.so
  cm := fun K hK ht => by
    rcases h2 K hK with h3 | h3
    · exact h.cm K h3 ht
    · exact absurd ht h3

/-- How the joint state changes when a leader `i` does something. -/
structure Upd2 (c0 : Raft.Conf N) (j j' : J N D) (i : N) : Prop where
  rn : ∀ k, k ≠ i → j'.r.node k = j.r.node k
  ln : ∀ k, k ≠ i → j'.l.nd k = j.l.nd k
  com : ∀ K ∈ j.r.g.commits, K ∈ j'.r.g.commits
  comn : ∀ K ∈ j'.r.g.commits, K ∈ j.r.g.commits ∨
    ∀ k, k ≠ i → (j.r.node k).role = .leader → Raft.lastTerm K ≠ (j.r.node k).term
  clk : j'.l.clk = j.l.clk
  aesn : ∀ a ∈ j'.aes, a ∈ j.aes ∨ (a.x = i ∧ LeaseNet.Msg.ae a.t a.x a.at_ ∈ j'.l.msgs)
  recs : j'.recs = j.recs
  recv : j'.l.recv = j.l.recv
  aes : ∀ a ∈ j.aes, a ∈ j'.aes
  lm : ∀ m ∈ j.l.msgs, m ∈ j'.l.msgs
  nc : NC (j'.r.node i) (j'.l.nd i)
  lc : (j'.r.node i).role = .leader → LC c0 j'.r.g.commits (j'.r.node i) (j'.l.nd i)
  aeb : ∀ a ∈ j'.aes, a.x = i → (j'.r.node i).role = .leader → (j'.r.node i).term = a.t →
    a.prev + a.es.length ≤ (j'.r.node i).log.length ∧
    ((j'.l.nd i).cu ≠ none → a.at_ < (j'.l.nd i).cuAt → a.prev + a.es.length < Raft.lastConfIdx (j'.r.node i).log)
  ap : (j'.l.nd i).ll.term ≠ 0 → (j'.l.nd i).ll.ts ≠ 0 →
    Raft.lastTerm ((j'.r.node i).log.take (j'.r.node i).applied) = (j'.r.node i).term
  cuc : (j'.l.nd i).cuAt ≤ j'.l.clk i
  won : ∀ T v, (T, v) ∈ j'.l.won ↔ WonR j'.r.g T v
  wc : ∀ e ∈ j'.r.g.elections, j'.l.wconf e.term = Raft.confOf c0 e.log
  ele : ∀ e ∈ j.r.g.elections, e ∈ j'.r.g.elections
  qf : ∀ t m c, Raft.Op.ackF t m c ∈ (j'.r.node i).queue → Raft.Op.ackF t m c ∈ (j.r.node i).queue
  ar : ∀ T v u, Raft.Msg.ar T v u ∈ j'.r.g.msgs → Raft.Msg.ar T v u ∈ j.r.g.msgs

theorem JI.upd2 {j j' : J N D} (h : JI c0 j) {i : N} (u : Upd2 c0 j j' i) : JI c0 j' where
  nc := fun k => by
    by_cases hk : k = i
    · subst hk; exact u.nc
    · rw [u.rn k hk, u.ln k hk]; exact h.nc k
  lc := fun k hr => by
    by_cases hk : k = i
    · subst hk; exact u.lc hr
    · rw [u.rn k hk] at hr ⊢; rw [u.ln k hk]
      refine (h.lc k hr).mono u.com (fun K hK => ?_)
      rcases u.comn K hK with h1 | h1
      · exact Or.inl h1
      · exact Or.inr (h1 k hk hr)
  ap := fun k => by
    by_cases hk : k = i
    · subst hk; exact u.ap
    · rw [u.rn k hk, u.ln k hk]; exact h.ap k
  cuc := fun k => by
    by_cases hk : k = i
    · subst hk; exact u.cuc
    · rw [u.ln k hk, u.clk]; exact h.cuc k
  won := u.won
  wc := u.wc
  aem := fun a ha => by
    rcases u.aesn a ha with h1 | h1
    · exact u.lm _ (h.aem a h1)
    · exact h1.2
  aeb := fun a ha hr ht => by
    by_cases hk : a.x = i
    · rw [hk] at hr ht ⊢
      exact u.aeb a ha hk hr ht
    · rcases u.aesn a ha with h1 | h1
      · rw [u.rn _ hk] at hr ht ⊢; rw [u.ln _ hk]; exact h.aeb a h1 hr ht
      · exact absurd h1.1 hk
  rc := fun p hp => by
    rw [u.recs] at hp
    rw [u.recv]
    obtain ⟨h1, h2⟩ := h.rc p hp
    exact ⟨u.aes _ h1, h2⟩
  qf := fun k t m c hm => by
    have hb : ∀ {T v w}, Backed j T v w → Backed j' T v w := fun hb => hb.mono (by rw [u.recs]; exact fun _ h => h)
    by_cases hk : k = i
    · subst hk; exact hb (h.qf k t m c (u.qf t m c hm))
    · rw [u.rn k hk] at hm
      exact hb (h.qf k t m c hm)
  ar := fun T v w hm => by
    rcases h.ar T v w (u.ar T v w hm) with ⟨e, h1, h2⟩ | h1
    · exact Or.inl ⟨e, u.ele e h1, h2⟩
    · exact Or.inr (h1.mono (by rw [u.recs]; exact fun _ h => h))

end Braft.LeaseRaft
