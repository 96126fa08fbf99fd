import Verif.LeaseInv
/-
Every step of the timed lease model preserves the invariant.
-/
set_option linter.unusedVariables false
set_option linter.unusedSimpArgs false
set_option linter.unusedSectionVars false

namespace Braft.LeaseNet
open Braft.Lease
open Braft.Raft (Conf confStepOk)

variable {N : Type} [DecidableEq N] {P : Params N}

theorem stepDown_role (n : Nd N) (t : Nat) : (stepDown n t).role = .follower := by
  unfold stepDown; simp only []; split <;> rfl

theorem stepDown_pterm (n : Nd N) (t : Nat) (hp : n.pterm ≤ n.term) :
    n.pterm ≤ (stepDown n t).pterm := by
  unfold stepDown; simp only []; split
  · show n.pterm ≤ t; omega
  · exact Nat.le_refl _

theorem leads_role {n : Nd N} {T : Nat} (h : n.role = .follower ∨ n.role = .candidate) :
    leads n T = false := by
  unfold leads
  rcases h with h | h <;> simp [h]

theorem leads_ne {n : Nd N} {T : Nat} (h : n.term ≠ T) : leads n T = false := by
  unfold leads; simp [h]

theorem leads_leader {n : Nd N} (h : n.role = .leader) : leads n n.term = true := by
  unfold leads; simp [h]

theorem leads_transferring {n : Nd N} (h : n.role = .transferring) : leads n n.term = true := by
  unfold leads; simp [h]

theorem Past.mono {s : St N} {t t' : Nat} {r : Rec N} (h : Past s t r) (hle : t ≤ t') : Past s t' r :=
  h.imp id (fun ⟨w, h1, h2, h3⟩ => ⟨w, h1, h2, by omega⟩)

/-- `step_down` keeps the node's invariant. -/
theorem NI.stepDown {s : St N} {i : N} {n : Nd N} (hn : NI P s i n) (t : Nat) :
    NI P s i (stepDown n t) := by
  have hlead : ∀ m : Nd N, m.role = .follower → leads m m.term = true → False := by
    intro m hm h; rw [leads_role (Or.inl hm)] at h; cases h
  have hll0 : (if n.role = .leader then n.ll.onLeaderStop else n.ll).term = 0 := by
    split
    · rfl
    · next hr => exact Classical.byContradiction fun hc => hr (hn.lr hc).1
  have hllt : (if n.role = .leader then n.ll.onLeaderStop else n.ll).timeout ≤ P.top := by
    split
    · exact hn.llc
    · exact hn.llc
  have hlts : (if n.role = .leader then n.ll.onLeaderStop else n.ll).ts ≤ s.clk i := by
    split
    · exact Nat.zero_le _
    · exact hn.tsc
  have hlle : (if n.role = .leader then n.ll.onLeaderStop else n.ll).epoch = n.ll.epoch := by
    split <;> rfl
  unfold LeaseNet.stepDown
  simp only []
  generalize (if n.role = .leader then n.ll.onLeaderStop else n.ll) = ll at *
  have hpt := hn.pt
  split
  · next hlt =>
    exact {
      pt := Nat.le_refl _
      flc := hn.flc
      opt := hn.opt
      llc := hllt
      rcp := fun r hr hi => by have := hn.rcp r hr hi; show r.t ≤ t; omega
      fls := fun r hr hi => (hn.fls r hr hi).imp id (fun h => h.imp id (fun h => h.mono (Nat.le_of_lt hlt)))
      fll := fun y hy => ⟨(hn.fll y hy).1, (hn.fll y hy).2.1, by have := (hn.fll y hy).2.2; show n.flT ≤ t; omega⟩
      vt := by
        intro T c hc
        have := (hn.vt T c hc).1
        exact ⟨by show T ≤ t; omega, fun h => absurd (show T = t from h) (by omega),
          fun h => absurd (show T = t from h) (by omega)⟩
      pv := fun c hc => by cases hc
      mv := fun c hc => by cases hc
      el := by
        intro e he
        obtain ⟨h1, h2, h3⟩ := hn.el e he
        exact ⟨by show e ≤ t; omega, fun h => absurd (show e = t from h) (by omega), h3⟩
      cand := fun h => by cases h
      sf := fun h => by cases h
      dis := hn.dis
      wn := fun T hT => ⟨by have := (hn.wn T hT).1; show T ≤ t; omega, fun _ h => by cases h⟩
      ld := fun h => (hlead _ rfl h).elim
      lr := fun h => absurd hll0 h
      rt := fun h => (hlead _ rfl h).elim
      ac := fun h => (hlead _ rfl h).elim
      aet := fun h => (hlead _ rfl h).elim
      rd := fun h => (hlead _ rfl h).elim
      pe := fun e he => by show e ≤ ll.epoch; rw [hlle]; exact hn.pe e he
      pr := fun h => absurd hll0 h
      ls := fun h => absurd hll0 h
      t1 := by have := hn.t1; show 1 ≤ t; omega
      mem := fun h => (hlead _ rfl h).elim
      cf := fun h => (hlead _ rfl h).elim
      tsc := hlts
      rtc := hn.rtc
      t0c := hn.t0c
      rdy := fun h => absurd hll0 h
      tr := fun h => by cases h }
  · exact {
      pt := hn.pt
      flc := hn.flc
      opt := hn.opt
      llc := hllt
      rcp := hn.rcp
      fls := hn.fls
      fll := hn.fll
      vt := hn.vt
      pv := hn.pv
      mv := hn.mv
      el := hn.el
      cand := fun h => by cases h
      sf := fun h => by cases h
      dis := hn.dis
      wn := fun T hT => ⟨(hn.wn T hT).1, fun _ h => by cases h⟩
      ld := fun h => (hlead _ rfl h).elim
      lr := fun h => absurd hll0 h
      rt := fun h => (hlead _ rfl h).elim
      ac := fun h => (hlead _ rfl h).elim
      aet := fun h => (hlead _ rfl h).elim
      rd := fun h => (hlead _ rfl h).elim
      pe := fun e he => by show e ≤ ll.epoch; rw [hlle]; exact hn.pe e he
      pr := fun h => absurd hll0 h
      ls := fun h => absurd hll0 h
      t1 := hn.t1
      mem := fun h => (hlead _ rfl h).elim
      cf := fun h => (hlead _ rfl h).elim
      tsc := hlts
      rtc := hn.rtc
      t0c := hn.t0c
      rdy := fun h => absurd hll0 h
      tr := fun h => by cases h }

/-! ### Facts about the current state -/

/-- A leadership that is over makes every earlier contact harmless. -/
theorem Inv.over_past {s : St N} (h : Inv P s) {T t : Nat} (ho : Over s T) {r : Rec N}
    (hr : r ∈ s.recv) (hle : r.t ≤ T) (ht : T ≤ t) : Past s t r := by
  obtain ⟨y, hy, hL⟩ := ho
  have hw := (h.g.rc r hr).1
  rcases Nat.lt_or_eq_of_le hle with hlt | heq
  · exact Or.inr ⟨_, hy, hlt, ht⟩
  · rw [← heq] at hy hL
    exact Or.inl (by rw [h.won_unique hw hy]; exact hL)

/-- A voter whose lease is over respects the leases it contributed to: time went by (up to the
drift), or the leadership is over. -/
theorem Inv.votable {s : St N} (h : Inv P s) {i : N}
    (hv : (s.nd i).fl.votable true (s.clk i) = 0) {r : Rec N} (hr : r ∈ s.recv) (hi : r.p = i) :
    Exp P s r ∨ Past s (s.nd i).term r := by
  rcases (h.n i).fls r hr hi with h1 | h1
  · left
    unfold Exp
    obtain ⟨hw, hat, hvec, _, _⟩ := h.g.rc r hr
    have hd := (h.g.hs _ hvec).2 i r.x
    have h0 : (s.nd i).fl.ts + (s.nd i).fl.timeout + (s.nd i).fl.drift ≤ s.clk i := by
      unfold Follower.votable at hv
      simp only [Bool.not_true, Bool.false_eq_true, if_false] at hv
      split at hv
      · assumption
      · omega
    have h1 := (h.n i).flc
    have h2 := h.g.ok.2
    omega
  · exact h1

/-! ### Initial state -/

theorem inv_init (hok : P.Ok) (hpb : P.probe = true) (c : N → Nat) : Inv P (init P c) := by
  constructor
  · constructor <;> first | exact hok | exact hpb | simp [init, Compat]
    omega
  · intro i
    have hl : ∀ m : Nd N, m.role = .follower → leads m m.term = true → False := by
      intro m hm h; rw [leads_role (Or.inl hm)] at h; cases h
    constructor <;> simp [init, boot, Follower.init, Follower.reset, leads]
    · split <;> omega
    · exact hok.1

/-! ### Steps that only change one node -/

theorem inv_tick {s : St N} (h : Inv P s) {v : N → Nat} (hp : pre P s (.tick v)) (hc : Compat (eff P s (.tick v))) :
    Inv P (eff P s (.tick v)) := by
  obtain ⟨hv, hd⟩ := hp
  have hE : Ext s (eff P s (.tick v)) := {
    clk := hv
    msgs := fun _ h => h
    won := fun _ h => h
    votes := fun _ h => h
    recv := fun _ h => h
    hist := fun _ h => List.mem_cons_of_mem _ h
    recvn := fun _ h => Or.inl h
    pt := fun _ => Nat.le_refl _
    lf := fun _ _ _ h => h
    wc := fun _ _ => rfl }
  refine ⟨h.gi_ext hE hc ?_ (List.mem_cons_self) (fun _ _ _ h => Or.inl h) (fun _ h => Or.inl h)
    (fun _ _ _ _ h => Or.inl h) (fun _ _ _ h => Or.inl h) (fun _ _ _ h _ => Or.inl h)
    (fun _ _ _ _ h => Or.inl h) (fun _ _ _ _ h => Or.inl h) (fun _ h => Or.inl h)
    (fun _ _ h => Or.inl h) (fun _ _ h => Or.inl h), ?_⟩
  · intro w hw
    rcases List.mem_cons.mp hw with rfl | hw
    · exact ⟨fun _ => Nat.le_refl _, fun i j => by show w i + w j ≤ w j + w i + P.skew; omega⟩
    · exact ⟨fun i => Nat.le_trans ((h.g.hs w hw).1 i) (hv i), hd w hw⟩
  · intro j
    exact (h.n j).ext h.g hE ⟨fun _ h _ => h, fun _ _ h => h, fun _ h => h, fun _ _ h => h⟩
      (Nat.le_refl _)

theorem inv_raise {s : St N} (h : Inv P s) {i : N} {t : Nat} (hc : Compat (eff P s (.raise i t))) :
    Inv P (eff P s (.raise i t)) := by
  refine h.setNd hc (stepDown_pterm _ _ (h.n i).pt)
    (fun T _ _ => leads_role (Or.inl (stepDown_role _ _))) (fun hn => hn.stepDown t)

theorem inv_resign {s : St N} (h : Inv P s) {i : N} {w : Bool}
    (hp : pre P s (.resign i w)) (hc : Compat (eff P s (.resign i w))) :
    Inv P (eff P s (.resign i w)) := by
  refine h.local (i := i) (n' := stepDown (s.nd i) (s.nd i).term) ?_ hc
    (stepDown_pterm _ _ (h.n i).pt)
    (fun T _ _ => leads_role (Or.inl (stepDown_role _ _))) ?_ ?_ ?_ ?_ (fun hn => hn.stepDown _)
  · refine ⟨rfl, rfl, rfl, rfl, rfl, rfl, rfl, ?_, ?_⟩
    · intro m hm
      show m ∈ (if w then _ else _)
      split
      · exact List.mem_cons_of_mem _ hm
      · exact hm
    · intro T x a ha
      replace ha : Msg.ae T x a ∈ (if w then Msg.tn (s.nd i).term :: s.msgs else s.msgs) := ha
      split at ha
      · rcases List.mem_cons.mp ha with h1 | h1
        · cases h1
        · exact h1
      · exact ha
  · intro T p x a ha
    replace ha : Msg.ack T p x a ∈ (if w then Msg.tn (s.nd i).term :: s.msgs else s.msgs) := ha
    left
    split at ha
    · rcases List.mem_cons.mp ha with h1 | h1
      · cases h1
      · exact h1
    · exact ha
  · intro T v c d ha
    replace ha : Msg.vr T v c d ∈ (if w then Msg.tn (s.nd i).term :: s.msgs else s.msgs) := ha
    left
    split at ha
    · rcases List.mem_cons.mp ha with h1 | h1
      · cases h1
      · exact h1
    · exact ha
  · intro T c d dt ha
    replace ha : Msg.rv T c (some (d, dt)) ∈
      (if w then Msg.tn (s.nd i).term :: s.msgs else s.msgs) := ha
    left
    split at ha
    · rcases List.mem_cons.mp ha with h1 | h1
      · cases h1
      · exact h1
    · exact ha
  · intro T ha
    replace ha : Msg.tn T ∈ (if w then Msg.tn (s.nd i).term :: s.msgs else s.msgs) := ha
    split at ha
    · next hw =>
      rcases List.mem_cons.mp ha with h1 | h1
      · right
        injection h1 with h1
        subst h1
        refine ⟨i, (h.n i).ld (hp hw), ?_⟩
        show leads (updF s.nd i _ i) _ = false
        rw [updF_same]
        exact leads_role (Or.inl (stepDown_role _ _))
      · exact Or.inl h1
    · exact Or.inl ha

theorem inv_setLeader {s : St N} (h : Inv P s) {i : N} {y : Option N} (hc : Compat (eff P s (.setLeader i y))) :
    Inv P (eff P s (.setLeader i y)) := by
  refine h.setNd hc (Nat.le_refl _) (fun T _ hl => hl) (fun hn => ?_)
  exact { hn with }

theorem inv_electStart {s : St N} (h : Inv P s) {i : N} {b : Bool}
    (hp : pre P s (.electStart i b)) (hc : Compat (eff P s (.electStart i b))) :
    Inv P (eff P s (.electStart i b)) := by
  obtain ⟨hrole, htn⟩ := hp
  have hl : ∀ T, (T, i) ∈ s.won → leads (s.nd i) T = false →
      leads (LeaseNet.electStart i (s.nd i) b) T = false := fun T _ _ => leads_role (Or.inr rfl)
  have hE : Ext s (setNd s i (LeaseNet.electStart i (s.nd i) b)) :=
    Local.ext ⟨rfl, rfl, rfl, rfl, rfl, rfl, rfl, fun _ h => h, fun _ _ _ h => h⟩ (Nat.le_refl _) hl
  refine h.setNd hc (Nat.le_refl _) hl (fun hn => ?_)
  have hlead : leads (LeaseNet.electStart i (s.nd i) b)
      (LeaseNet.electStart i (s.nd i) b).term = true → False := by
    intro h; rw [leads_role (Or.inr rfl)] at h; cases h
  have hll0 : (s.nd i).ll.term = 0 := Classical.byContradiction fun hc => by
    have := (hn.lr hc).1
    rcases hrole with hr | hr <;> rw [hr] at this <;> cases this
  have hpt := hn.pt
  exact {
    pt := Nat.le_succ_of_le hn.pt
    flc := by
      show _ ≤ (if b then _ else _ : Follower N).timeout + (if b then _ else _ : Follower N).drift
      split <;> exact hn.flc
    opt := hn.opt
    llc := hn.llc
    rcp := hn.rcp
    fls := by
      intro r hr hi
      show r.vec i ≤ (if b then _ else _ : Follower N).ts ∨ _
      split
      · next hb =>
        right; right
        have h1 := (h.n i).rcp r hr hi
        have h2 := (h.n i).pt
        exact (h.over_past (h.g.tn _ (htn hb).2) hr (by omega) (Nat.le_succ _)).ext hE (h.g.rc r hr).1 (Nat.le_refl _)
      · exact (hn.fls r hr hi).imp id (fun h => h.imp id (fun h => h.mono (Nat.le_succ _)))
    fll := by
      intro y hy
      have hy' : (s.nd i).fl.lastLeader = some y := by
        replace hy : (if b then (s.nd i).fl.expire else (s.nd i).fl).lastLeader = some y := hy
        split at hy <;> exact hy
      exact hn.fll y hy'
    vt := by
      intro T c hc
      have h1 := hn.vt T c hc
      exact ⟨h1.1, h1.2.1, fun h2 => absurd (show T = (s.nd i).term + 1 from h2) (by omega)⟩
    pv := hn.pv
    mv := fun c hc => by injection hc with hc; exact Or.inl hc.symm
    el := by
      intro e he
      injection he with he
      subst he
      have := hn.t1
      exact ⟨Nat.le_refl _, fun _ => rfl, by omega⟩
    cand := fun _ h => by cases h
    sf := fun _ h => by cases h
    dis := by
      intro d dt hd
      replace hd : (if b then some ((s.nd i).leader, (s.nd i).term) else none) = some (d, dt) := hd
      split at hd
      · next hb =>
        injection hd with hd
        injection hd with hd1 hd2
        subst hd2
        exact (h.g.tn _ (htn hb).2).ext hE
      · cases hd
    wn := by
      intro T hT
      have := (hn.wn T hT).1
      exact ⟨this, fun h2 => absurd (show T = (s.nd i).term + 1 from h2) (by omega)⟩
    ld := fun h => (hlead h).elim
    lr := fun h => absurd hll0 h
    rt := fun h => (hlead h).elim
    ac := fun h => (hlead h).elim
    aet := fun h => (hlead h).elim
    rd := fun h => (hlead h).elim
    pe := hn.pe
    pr := fun h => absurd hll0 h
    ls := fun h => absurd hll0 h
    t1 := hn.t1
    mem := fun h => (hlead h).elim
    cf := fun h => (hlead h).elim
    tsc := hn.tsc
    rtc := hn.rtc
    t0c := hn.t0c
    rdy := fun h => absurd hll0 h
    tr := fun h => by cases h }

/-- The node grants itself a vote it has the right to give. -/
theorem inv_self {s : St N} (h : Inv P s) {i : N} (hc : Compat (setNd s i { s.nd i with self := true })) (hs : (s.nd i).sent = true)
    (hv : VOk P s (s.nd i).term i) (hr : (s.nd i).role = .candidate) :
    Inv P (setNd s i { s.nd i with self := true }) := by
  have hE : Ext s (setNd s i { s.nd i with self := true }) :=
    Local.ext ⟨rfl, rfl, rfl, rfl, rfl, rfl, rfl, fun _ h => h, fun _ _ _ h => h⟩ (Nat.le_refl _)
      (fun _ _ h => h)
  refine h.setNd hc (Nat.le_refl _) (fun T _ hl => hl) (fun hn => ?_)
  exact { hn with
    sf := fun _ _ => ⟨hv.ext h.g hE (by rw [((h.n i).cand hr hs).1]; exact Nat.le_refl _), hs⟩ }

theorem inv_grantSelf {s : St N} (h : Inv P s) {i : N}
    (hp : pre P s (.grantSelf i)) (hc : Compat (eff P s (.grantSelf i))) :
    Inv P (eff P s (.grantSelf i)) := by
  obtain ⟨hr, hs, hv⟩ := hp
  exact inv_self h hc hs (fun r hr hi _ => h.votable hv hr hi) hr

theorem inv_grantSelfByLeader {s : St N} (h : Inv P s) {i y : N} {dt : Option Nat}
    (hp : pre P s (.grantSelfByLeader i y dt)) (hc : Compat (eff P s (.grantSelfByLeader i y dt))) :
    Inv P (eff P s (.grantSelfByLeader i y dt)) := by
  obtain ⟨hr, hs, hm, hl⟩ := hp
  refine inv_self h hc hs ?_ hr
  intro r hr' hi hlt
  right
  obtain ⟨hw, hle, hft⟩ := (h.n i).fll y hl
  obtain ⟨_, hvote, _⟩ := h.g.vr _ _ _ _ hm
  have hy := h.vote_le hvote
  have hy' := (h.n y).pt
  have h1 := hle r hr' hi
  have hpt := (h.n i).pt
  rcases Nat.lt_or_eq_of_le h1 with h2 | h2
  · exact Or.inr ⟨_, hw, h2, by show (s.nd i).flT ≤ _; omega⟩
  · rw [← h2] at hw
    refine Or.inl ?_
    rw [h.won_unique (h.g.rc r hr').1 hw]
    exact leads_ne (by omega)

theorem inv_retry {s : St N} (h : Inv P s) {i y : N} {dt : Nat}
    (hp : pre P s (.retry i y dt)) (hc : Compat (eff P s (.retry i y dt))) :
    Inv P (eff P s (.retry i y dt)) := by
  obtain ⟨hr, hm⟩ := hp
  have ho : Over s dt := by
    obtain ⟨_, _, h1⟩ := h.g.vr _ _ _ _ hm
    exact ⟨y, (h1 dt rfl).1, (h1 dt rfl).2⟩
  have hL : Local s (eff P s (.retry i y dt)) i { s.nd i with dis := some (some y, dt) } := by
    refine ⟨rfl, rfl, rfl, rfl, rfl, rfl, rfl, fun m hm => List.mem_cons_of_mem _ hm, ?_⟩
    intro T x a ha
    rcases List.mem_cons.mp ha with h1 | h1
    · cases h1
    · exact h1
  have hE := hL.ext (Nat.le_refl _) (fun _ _ h => h)
  refine h.local hL hc (Nat.le_refl _) (fun _ _ h => h) ?_ ?_ ?_ ?_ ?_
  · intro T p x a ha
    rcases List.mem_cons.mp ha with h1 | h1
    · cases h1
    · exact Or.inl h1
  · intro T v c d ha
    rcases List.mem_cons.mp ha with h1 | h1
    · cases h1
    · exact Or.inl h1
  · intro T c d dt' ha
    rcases List.mem_cons.mp ha with h1 | h1
    · right
      injection h1 with _ _ h1
      injection h1 with h1
      injection h1 with _ h1
      rw [h1]; exact ho.ext hE
    · exact Or.inl h1
  · intro T ha
    rcases List.mem_cons.mp ha with h1 | h1
    · cases h1
    · exact Or.inl h1
  · intro hn
    exact { hn with
      dis := by
        intro d dt' hd
        injection hd with hd
        injection hd with _ hd
        rw [← hd]; exact ho.ext hE }

theorem inv_voteExpire {s : St N} (h : Inv P s) {i : N} {t : Nat} {c : N} {d : Option N}
    {dt : Nat} (hp : pre P s (.voteExpire i t c d dt)) (hc : Compat (eff P s (.voteExpire i t c d dt))) :
    Inv P (eff P s (.voteExpire i t c d dt)) := by
  obtain ⟨hm, hr, ht, hd⟩ := hp
  have hE : Ext s (setNd s i { s.nd i with fl := (s.nd i).fl.expire }) :=
    Local.ext ⟨rfl, rfl, rfl, rfl, rfl, rfl, rfl, fun _ h => h, fun _ _ _ h => h⟩ (Nat.le_refl _)
      (fun _ _ h => h)
  refine h.setNd hc (Nat.le_refl _) (fun T _ hl => hl) (fun hn => ?_)
  exact { hn with
    flc := hn.flc
    fls := by
      intro r hr hi
      right; right
      have h1 := (h.n i).rcp r hr hi
      have h2 := (h.n i).pt
      exact (h.over_past (h.g.rv _ _ _ _ hm) hr (by omega) (Nat.le_of_eq ht.symm)).ext hE (h.g.rc r hr).1 (Nat.le_refl _)
    fll := hn.fll }

theorem updF_self {β : Type} (f : N → β) (i : N) : f = updF f i (f i) := by
  funext j
  by_cases hj : j = i
  · subst hj; rw [updF_same]
  · rw [updF_other _ _ hj]

theorem inv_voteAgain {s : St N} (h : Inv P s) {i : N} {t : Nat} {c : N}
    {d : Option (Option N × Nat)} (hp : pre P s (.voteAgain i t c d)) (hc : Compat (eff P s (.voteAgain i t c d))) :
    Inv P (eff P s (.voteAgain i t c d)) := by
  obtain ⟨hm, hne, ht, hv⟩ := hp
  refine h.local (i := i) (n' := s.nd i) ?_ hc (Nat.le_refl _) (fun _ _ h => h) ?_ ?_ ?_ ?_ (fun hn => hn)
  · refine ⟨updF_self _ _, rfl, rfl, rfl, rfl, rfl, rfl, fun m hm => List.mem_cons_of_mem _ hm, ?_⟩
    intro T x a ha
    rcases List.mem_cons.mp ha with h1 | h1
    · cases h1
    · exact h1
  · intro T p x a ha
    rcases List.mem_cons.mp ha with h1 | h1
    · cases h1
    · exact Or.inl h1
  · intro T v c' d' ha
    rcases List.mem_cons.mp ha with h1 | h1
    · right
      injection h1 with h1 h2 h3 h4
      subst h1 h2 h3 h4
      refine ⟨hne, ?_, fun dt hdt => by cases hdt⟩
      rcases (h.n v).mv c' hv with h5 | h5
      · exact absurd h5 hne
      · rw [ht] at h5; exact h5
    · exact Or.inl h1
  · intro T c' d' dt' ha
    rcases List.mem_cons.mp ha with h1 | h1
    · cases h1
    · exact Or.inl h1
  · intro T ha
    rcases List.mem_cons.mp ha with h1 | h1
    · cases h1
    · exact Or.inl h1

theorem inv_ackAE {s : St N} (h : Inv P s) {i : N} {t : Nat} {x : N} {a : Nat}
    (hp : pre P s (.ackAE i t x a)) (hc : Compat (eff P s (.ackAE i t x a))) :
    Inv P (eff P s (.ackAE i t x a)) := by
  obtain ⟨ht, r, hm, hr1, hr2, hr3, hr4⟩ := hp
  refine h.local (i := i) (n' := s.nd i) ?_ hc (Nat.le_refl _) (fun _ _ h => h) ?_ ?_ ?_ ?_ (fun hn => hn)
  · refine ⟨updF_self _ _, rfl, rfl, rfl, rfl, rfl, rfl, fun m hm => List.mem_cons_of_mem _ hm, ?_⟩
    intro T x a ha
    rcases List.mem_cons.mp ha with h1 | h1
    · cases h1
    · exact h1
  · intro T p x a ha
    rcases List.mem_cons.mp ha with h1 | h1
    · right
      injection h1 with h1 h2 h3 h4
      exact ⟨r, hm, hr2.trans h1.symm, hr1.trans h2.symm, hr3.trans h3.symm, hr4.trans h4.symm⟩
    · exact Or.inl h1
  · intro T v c' d' ha
    rcases List.mem_cons.mp ha with h1 | h1
    · cases h1
    · exact Or.inl h1
  · intro T c' d' dt' ha
    rcases List.mem_cons.mp ha with h1 | h1
    · cases h1
    · exact Or.inl h1
  · intro T ha
    rcases List.mem_cons.mp ha with h1 | h1
    · cases h1
    · exact Or.inl h1

theorem inv_recvAck {s : St N} (h : Inv P s) {i p : N} {a : Nat}
    (hp : pre P s (.recvAck i p a)) (hc : Compat (eff P s (.recvAck i p a))) :
    Inv P (eff P s (.recvAck i p a)) := by
  obtain ⟨hl, hst, hm⟩ := hp
  obtain ⟨r, hr, h1, h2, h3, h4⟩ := h.g.ak _ _ _ _ hm
  refine h.setNd hc (Nat.le_refl _) (fun T _ hl => hl) (fun hn => ?_)
  exact { hn with
    rt := by
      intro _ q
      show updF (s.nd i).rts p (max ((s.nd i).rts p) a) q ≤ _ ∨ ∃ r ∈ s.recv, r.t = (s.nd i).term ∧ _ ∧ _ ∧ updF (s.nd i).rts p (max ((s.nd i).rts p) a) q ≤ _
      by_cases hq : q = p
      · subst hq
        rw [updF_same]
        by_cases hle : a ≤ (s.nd i).rts q
        · rw [Nat.max_eq_left hle]
          exact hn.rt hl q
        · rw [Nat.max_eq_right (by omega)]
          exact Or.inr ⟨r, hr, h1, h2, h3, by omega⟩
      · rw [updF_other _ _ hq]
        exact hn.rt hl q
    ac := by
      intro _ q hq
      rcases List.mem_cons.mp hq with rfl | hq
      · exact ⟨r, hr, h1, h2, h3, by rw [h4]; exact hst⟩
      · exact hn.ac hl q hq
    mem := fun _ q hq => (hn.mem hl q hq).imp id (fun h => h.imp id (fun h => List.mem_cons_of_mem _ h))
    rtc := by
      intro q
      show updF (s.nd i).rts p (max ((s.nd i).rts p) a) q ≤ s.clk i
      by_cases hq : q = p
      · subst hq
        rw [updF_same]
        have h5 := hn.rtc q
        have h6 := (h.g.rc r hr).2.1
        have h7 := (h.g.hs _ (h.g.rc r hr).2.2.1).1 i
        rw [h3] at h6
        refine Nat.max_le.mpr ⟨h5, ?_⟩
        omega
      · rw [updF_other _ _ hq]
        exact hn.rtc q }

theorem inv_commitFirst {s : St N} (h : Inv P s) {i : N}
    (hp : pre P s (.commitFirst i)) (hc : Compat (eff P s (.commitFirst i))) : Inv P (eff P s (.commitFirst i)) := by
  obtain ⟨hr, hrf, hm⟩ := hp
  have hl := leads_leader hr
  refine h.setNd hc (Nat.le_refl _) (fun T _ hl => hl) (fun hn => ?_)
  exact { hn with
    rd := fun _ _ => hm
    pe := by
      intro e he
      rcases List.mem_cons.mp he with rfl | he
      · exact Nat.le_refl _
      · exact hn.pe e he
    pr := fun _ _ => rfl
    cf := fun _ c hcu => ⟨(hn.cf hl c hcu).1, (hn.cf hl c hcu).2.1, rfl⟩
    rdy := fun _ _ => rfl
    tr := fun _ => rfl }

/-- The initial entry has committed, so there is no configuration in flight. -/
theorem cur_eq {n : Nd N} (h : n.cu = none) : n.cur = n.cc := by unfold Nd.cur; rw [h]; rfl

theorem cur_some {n : Nd N} {c : Conf N} (h : n.cu = some c) : n.cur = c := by unfold Nd.cur; rw [h]; rfl

theorem inv_startRepl {s : St N} (h : Inv P s) {i p : N} (hp : pre P s (.startRepl i p))
    (hc : Compat (eff P s (.startRepl i p))) : Inv P (eff P s (.startRepl i p)) := by
  obtain ⟨hl, hp1, hp2⟩ := hp
  refine h.setNd hc (Nat.le_refl _) (fun T _ hl => hl) (fun hn => ?_)
  exact { hn with
    rt := by
      intro _ q
      show updF (s.nd i).rts p (s.clk i) q ≤ updF (s.nd i).st p (s.clk i) q ∨
        ∃ r ∈ s.recv, r.t = (s.nd i).term ∧ r.p = q ∧ r.x = i ∧ updF (s.nd i).rts p (s.clk i) q ≤ r.at_
      by_cases hq : q = p
      · subst hq; rw [updF_same, updF_same]; exact Or.inl (Nat.le_refl _)
      · rw [updF_other _ _ hq, updF_other _ _ hq]; exact hn.rt hl q
    ac := by
      intro _ q hq
      obtain ⟨h1, h2⟩ := List.mem_filter.mp hq
      have hqp : q ≠ p := of_decide_eq_true h2
      show ∃ r ∈ s.recv, r.t = (s.nd i).term ∧ r.p = q ∧ r.x = i ∧ updF (s.nd i).st p (s.clk i) q ≤ r.at_
      rw [updF_other _ _ hqp]; exact hn.ac hl q h1
    mem := by
      intro _ q hq
      replace hq : q ∈ (s.nd i).cur.peers ∨ q ∈ (s.nd i).cur.old := hq
      have hqp : q ≠ p := by rintro rfl; exact hq.elim hp1 hp2
      show q = i ∨ updF (s.nd i).st p (s.clk i) q ≤ (s.nd i).t0 ∨ q ∈ (s.nd i).acked.filter _
      rw [updF_other _ _ hqp]
      exact (hn.mem hl q hq).imp id (fun h => h.imp id (fun h => List.mem_filter.mpr ⟨h, decide_eq_true hqp⟩))
    rtc := by
      intro q
      show updF (s.nd i).rts p (s.clk i) q ≤ s.clk i
      by_cases hq : q = p
      · subst hq; rw [updF_same]; exact Nat.le_refl _
      · rw [updF_other _ _ hq]; exact hn.rtc q }

theorem confStep_old {c c' : Conf N} (h : confStepOk c c' = true) : ∀ p ∈ c'.old, p ∈ c.peers := by
  intro p hp
  have hne : c'.old ≠ [] := fun he => by rw [he] at hp; cases hp
  unfold confStepOk at h
  split at h
  · simp only [Bool.or_eq_true, Bool.and_eq_true, decide_eq_true_eq] at h
    rcases h with h | h
    · exact absurd h.1 hne
    · rw [h.1] at hp; exact hp
  · rw [decide_eq_true_eq] at h
    exact absurd h.1 hne

theorem inv_changeConf {s : St N} (h : Inv P s) {i : N} {c : Conf N} (hp : pre P s (.changeConf i c))
    (hc : Compat (eff P s (.changeConf i c))) : Inv P (eff P s (.changeConf i c)) := by
  obtain ⟨hl, hre, hcu, hok, hpb⟩ := hp
  refine h.setNd hc (Nat.le_refl _) (fun T _ hl => hl) (fun hn => ?_)
  exact { hn with
    mem := by
      intro _ p hp
      have hb : ∀ p, p ∈ (s.nd i).cc.peers ∨ p ∈ (s.nd i).cc.old → p = i ∨ (s.nd i).st p ≤ (s.nd i).t0 ∨ p ∈ (s.nd i).acked := by
        have := hn.mem hl; rw [cur_eq hcu] at this; exact this
      rcases hp with hp | hp
      · rcases hpb h.g.pb p hp with h1 | h1 | h1 | h1
        · exact hb p (Or.inl h1)
        · exact hb p (Or.inr h1)
        · exact Or.inl h1
        · exact Or.inr (Or.inr h1)
      · exact hb p (Or.inl (confStep_old hok p hp))
    cf := by
      intro _ c' hc'
      have hc' : some c = some c' := hc'
      injection hc' with hc'
      subst hc'
      exact ⟨hok, hn.t0c, hre⟩
    ls := by
      intro h1 h2
      right
      refine ⟨?_, hn.tsc⟩
      rcases hn.ls h1 h2 with h3 | h3
      · rw [cur_eq hcu] at h3; exact h3
      · exact h3.1 }

theorem inv_commitConf {s : St N} (h : Inv P s) {i : N} (hp : pre P s (.commitConf i))
    (hc : Compat (eff P s (.commitConf i))) : Inv P (eff P s (.commitConf i)) := by
  obtain ⟨hl, hcu, hq⟩ := hp
  obtain ⟨c, hcu⟩ := Option.ne_none_iff_exists'.mp hcu
  refine h.setNd hc (Nat.le_refl _) (fun T _ hl => hl) (fun hn => ?_)
  exact { hn with
    rd := fun _ _ => LOk.mono (s := setNd s i _) hq (hn.cf hl c hcu).2.1
    mem := fun _ => hn.mem hl
    cf := fun _ c' hc' => by cases hc'
    ls := by
      intro h1 h2
      left
      rcases hn.ls h1 h2 with h3 | h3
      · exact h3
      · exact LOk.mono (s := setNd s i _) hq h3.2 }

theorem majority_mem {l : List N} {A B : N → Bool} (h : Majority l A) (hi : ∀ v ∈ l, A v = true → B v = true) : Majority l B := by
  unfold Majority at h ⊢
  exact Nat.lt_of_lt_of_le h (Nat.mul_le_mul_left 2 (List.countP_mono_left hi))

/-- The timestamp computed from the contacts is supported by contacts. -/
theorem Inv.lastActive_ok {s : St N} (h : Inv P s) {i : N}
    (hr : (s.nd i).role = .leader) (hre : (s.nd i).ready = true) (hmem : Mem (s.nd i).cur i) :
    let ts := lastActive (s.nd i).cur.peers (s.nd i).cur.old i (s.nd i).rts (s.clk i)
    LOk (s.nd i).cur s i (s.nd i).term ts ∨ (LOk (s.nd i).cc s i (s.nd i).term ts ∧ ts ≤ (s.nd i).cuAt) := by
  intro ts
  have hl := leads_leader hr
  have hn := h.n i
  obtain ⟨hq1, hq2⟩ := Props.C27_quorum_timestamp_partial (contact := (s.nd i).rts) (now := s.clk i) (s.nd i).cur.nd hmem.1
    (s.nd i).cur.ndo hmem.2
  by_cases hle : ts ≤ (s.nd i).t0
  · have hrd := (hn.rd hl hre).mono hle
    cases hcu : (s.nd i).cu with
    | none => left; rw [cur_eq hcu]; exact hrd
    | some c => exact Or.inr ⟨hrd, Nat.le_trans hle (hn.cf hl c hcu).2.1⟩
  · left
    have hv : ∀ v, v ∈ (s.nd i).cur.peers ∨ v ∈ (s.nd i).cur.old →
        (decide (v = i) || decide (ts ≤ (s.nd i).rts v)) = true → contact s i (s.nd i).term ts v = true := by
      intro v hm hv
      rw [contact_iff]
      simp only [Bool.or_eq_true, decide_eq_true_eq] at hv
      rcases hv with hv | hv
      · exact Or.inl hv
      rcases hn.rt hl v with h1 | ⟨r, hr, h1, h2, h3, h4⟩
      · rcases hn.mem hl v hm with h2 | h2 | h2
        · exact Or.inl h2
        · omega
        · obtain ⟨r, hr, h3, h4, h5, h6⟩ := hn.ac hl v h2
          exact Or.inr ⟨r, hr, h3, h4, h5, by omega⟩
      · exact Or.inr ⟨r, hr, h1, h2, h3, by omega⟩
    exact ⟨majority_mem hq1 (fun v hm => hv v (Or.inl hm)), fun ho => majority_mem (hq2 ho) (fun v hm => hv v (Or.inr hm))⟩

theorem keepTop_le {k m : Nat} : ∀ {l : List Nat} {h : List Nat}, (∀ x ∈ l, x ≤ m) → (∀ x ∈ h, x ≤ m) →
    ∀ x ∈ l.foldl (keepTop k) h, x ≤ m
  | [], h, _, hh => hh
  | a :: l, h, hl, hh => by
    refine keepTop_le (l := l) (h := keepTop k h a) (fun x hx => hl x (List.mem_cons_of_mem _ hx)) ?_
    have hp : ∀ x ∈ heapPush a h, x ≤ m := by
      intro x hx
      rcases List.mem_cons.mp ((heapPush_perm a h).mem_iff.mp hx) with h1 | h1
      · rw [h1]; exact hl a List.mem_cons_self
      · exact hh x h1
    unfold keepTop
    intro x hx
    dsimp only at hx
    split at hx
    · exact hp x (List.mem_of_mem_drop hx)
    · exact hp x hx

theorem lastActive1_le {peers : List N} {self : N} {f : N → Nat} {now : Nat} (h : ∀ p, f p ≤ now) :
    lastActive1 peers self f now ≤ now := by
  unfold lastActive1
  simp only []
  have := keepTop_le (k := peers.length / 2) (m := now) (l := (peers.filter (fun p => p ≠ self)).map f) (h := [])
    (by intro x hx; obtain ⟨p, _, rfl⟩ := List.mem_map.mp hx; exact h p) (by intro x hx; cases hx)
  split
  · exact Nat.le_refl _
  · next t _ he => exact this t (by rw [he]; exact List.mem_cons_self)

theorem lastActive_le {peers old : List N} {self : N} {f : N → Nat} {now : Nat} (h : ∀ p, f p ≤ now) :
    lastActive peers old self f now ≤ now := by
  unfold lastActive
  simp only []
  split
  · exact Nat.le_trans (Nat.min_le_left _ _) (lastActive1_le h)
  · exact lastActive1_le h

theorem inv_leaseStart {s : St N} (h : Inv P s) (hmb : P.memb = true) {i : N} {e : Nat}
    (hp : pre P s (.leaseStart i e)) (hc : Compat (eff P s (.leaseStart i e))) :
    Inv P (eff P s (.leaseStart i e)) := by
  obtain ⟨hr, he, hmem⟩ := hp
  refine h.setNd hc (Nat.le_refl _) (fun T _ hl => hl) (fun hn => ?_)
  unfold Leader.onLeaseStart at hn ⊢
  by_cases hcc : (s.nd i).ll.term = 0 ∨ e ≠ (s.nd i).ll.epoch
  · rw [if_pos hcc] at hn ⊢; exact hn
  · rw [if_neg hcc] at hn ⊢
    have h1 : (s.nd i).ll.term ≠ 0 := fun h => hcc (Or.inl h)
    have h2 : e = (s.nd i).ll.epoch := Classical.byContradiction fun h => hcc (Or.inr h)
    have hre := hn.pr h1 (h2 ▸ he)
    exact { hn with
      ls := fun _ _ => h.lastActive_ok hr hre (hmem hmb)
      tsc := lastActive_le hn.rtc
      rdy := fun _ _ => hre }

theorem inv_renew {s : St N} (h : Inv P s) (hmb : P.memb = true) {i : N}
    (hp : pre P s (.renew i)) (hc : Compat (eff P s (.renew i))) :
    Inv P (eff P s (.renew i)) := by
  obtain ⟨hr, hi, hmem⟩ := hp
  have h12 : (s.nd i).ll.term ≠ 0 ∧ (s.nd i).ll.ts ≠ 0 := by
    unfold Leader.info at hi
    simp only [Bool.not_true, Bool.false_eq_true, if_false] at hi
    by_cases h1 : (s.nd i).ll.term = 0
    · rw [if_pos h1] at hi; cases hi
    · by_cases h2 : (s.nd i).ll.ts = 0
      · rw [if_neg h1, if_pos h2] at hi; cases hi
      · exact ⟨h1, h2⟩
  refine h.setNd hc (Nat.le_refl _) (fun T _ hl => hl) (fun hn => ?_)
  have hre := hn.rdy h12.1 h12.2
  exact { hn with
    ls := fun _ _ => h.lastActive_ok hr hre (hmem hmb)
    tsc := lastActive_le hn.rtc
    rdy := fun _ _ => hre }

theorem inv_transfer {s : St N} (h : Inv P s) {i : N}
    (hp : pre P s (.transfer i)) (hc : Compat (eff P s (.transfer i))) :
    Inv P (eff P s (.transfer i)) := by
  obtain ⟨hr, hre⟩ := hp
  have hl := leads_leader hr
  refine h.setNd hc (Nat.le_refl _) ?_ (fun hn => ?_)
  · intro T _ hl
    unfold leads at hl ⊢
    rw [hr] at hl
    simpa using hl
  · exact {
      pt := hn.pt
      flc := hn.flc
      opt := hn.opt
      llc := hn.llc
      rcp := hn.rcp
      fls := hn.fls
      fll := hn.fll
      vt := hn.vt
      pv := hn.pv
      mv := hn.mv
      el := hn.el
      cand := fun h => by cases h
      sf := fun h => by cases h
      dis := hn.dis
      wn := fun T hT => ⟨(hn.wn T hT).1, fun _ h => by cases h⟩
      ld := fun _ => hn.ld hl
      lr := fun h => absurd rfl h
      rt := fun _ => hn.rt hl
      ac := fun _ => hn.ac hl
      aet := fun _ => hn.aet hl
      rd := fun _ => hn.rd hl
      pe := hn.pe
      pr := fun h => absurd rfl h
      ls := fun h => absurd rfl h
      t1 := hn.t1
      mem := fun _ => hn.mem hl
      cf := fun _ => hn.cf hl
      tsc := Nat.zero_le _
      rtc := hn.rtc
      t0c := hn.t0c
      rdy := fun h => absurd rfl h
      tr := fun _ => hre }

theorem inv_transferTimeout {s : St N} (h : Inv P s) {i : N}
    (hp : pre P s (.transferTimeout i)) (hc : Compat (eff P s (.transferTimeout i))) :
    Inv P (eff P s (.transferTimeout i)) := by
  have hr : (s.nd i).role = .transferring := hp
  have hl := leads_transferring hr
  refine h.setNd hc (Nat.le_refl _) ?_ (fun hn => ?_)
  · intro T _ hl
    unfold leads at hl ⊢
    rw [hr] at hl
    simpa using hl
  · have hre := hn.tr hr
    exact {
      pt := hn.pt
      flc := hn.flc
      opt := hn.opt
      llc := hn.llc
      rcp := hn.rcp
      fls := hn.fls
      fll := hn.fll
      vt := hn.vt
      pv := hn.pv
      mv := hn.mv
      el := hn.el
      cand := fun h => by cases h
      sf := fun h => by cases h
      dis := hn.dis
      wn := fun T hT => ⟨(hn.wn T hT).1, fun _ h => by cases h⟩
      ld := fun _ => hn.ld hl
      lr := fun _ => ⟨rfl, rfl⟩
      rt := fun _ => hn.rt hl
      ac := fun _ => hn.ac hl
      aet := fun _ => hn.aet hl
      rd := fun _ => hn.rd hl
      pe := by
        intro e he
        rcases List.mem_cons.mp he with rfl | he
        · exact Nat.le_refl _
        · exact Nat.le_succ_of_le (hn.pe e he)
      pr := fun _ _ => hre
      ls := fun _ h => absurd rfl h
      t1 := hn.t1
      mem := fun _ => hn.mem hl
      cf := fun _ => hn.cf hl
      tsc := Nat.zero_le _
      rtc := hn.rtc
      t0c := hn.t0c
      rdy := fun _ h => absurd rfl h
      tr := fun h => by cases h }

/-- A restart keeps the node's invariant. -/
theorem NI.boot {s : St N} (hg : GI P s) {i : N} {n : Nd N} (hn : NI P s i n) :
    NI P s i (LeaseNet.boot P i n.pterm n.pvote (s.clk i)) := by
  have hlead : leads (LeaseNet.boot P i n.pterm n.pvote (s.clk i))
      (LeaseNet.boot P i n.pterm n.pvote (s.clk i)).term = true → False := by
    intro h; rw [leads_role (Or.inl rfl)] at h; cases h
  exact {
    pt := Nat.le_refl _
    flc := by
      show _ ≤ (if _ then _ else _ : Follower N).timeout + (if _ then _ else _ : Follower N).drift
      split <;> (show _ ≤ (if P.wit i then P.timeout * 2 else P.timeout) + P.drift; split <;> omega)
    llc := hg.ok.1
    opt := Nat.le_refl _
    rcp := hn.rcp
    fls := by
      intro r hr hi
      show r.vec i ≤ (if _ then _ else _ : Follower N).ts ∨ _
      split
      · next hc =>
        exfalso
        have h1 := hn.rcp r hr hi
        have h2 := hg.w2 _ _ (hg.rc r hr).1
        omega
      · left
        exact (hg.hs _ (hg.rc r hr).2.2.1).1 i
    fll := by
      intro y hy
      exfalso
      replace hy : (if _ then _ else _ : Follower N).lastLeader = some y := hy
      split at hy <;> cases hy
    vt := fun T c hc => ⟨(hn.vt T c hc).1, (hn.vt T c hc).2.1, (hn.vt T c hc).2.1⟩
    pv := hn.pv
    mv := fun c hc => Or.inr (hn.pv c hc)
    el := fun e he => by cases he
    cand := fun h => by cases h
    sf := fun h => by cases h
    dis := fun d dt hd => by cases hd
    wn := fun T hT => ⟨(hn.wn T hT).1, fun _ h => by cases h⟩
    ld := fun h => (hlead h).elim
    lr := fun h => absurd rfl h
    rt := fun h => (hlead h).elim
    ac := fun h => (hlead h).elim
    aet := fun h => (hlead h).elim
    rd := fun h => (hlead h).elim
    pe := fun e he => by cases he
    pr := fun h => absurd rfl h
    ls := fun h => absurd rfl h
    t1 := hn.t1
    mem := fun h => (hlead h).elim
    cf := fun h => (hlead h).elim
    tsc := Nat.zero_le _
    rtc := fun _ => Nat.zero_le _
    t0c := Nat.zero_le _
    rdy := fun h => absurd rfl h
    tr := fun h => by cases h }

theorem inv_crash {s : St N} (h : Inv P s) {i : N} (hc : Compat (eff P s (.crash i))) :
    Inv P (eff P s (.crash i)) := by
  have hL : Local s (eff P s (.crash i)) i (LeaseNet.boot P i (s.nd i).pterm (s.nd i).pvote (s.clk i)) :=
    ⟨rfl, rfl, rfl, rfl, rfl, rfl, rfl, fun _ h => h, fun _ _ _ h => h⟩
  refine h.setNd hc (Nat.le_refl _) (fun T _ _ => leads_role (Or.inl rfl)) (fun hn => ?_)
  exact (NI.boot h.g (h.n i)).ext h.g (hL.ext (Nat.le_refl _) (fun T _ _ => leads_role (Or.inl rfl)))
    ⟨fun _ h _ => h, fun _ _ h => h, fun _ h => h, fun _ _ h => h⟩ (Nat.le_refl _)

theorem inv_electCrash {s : St N} (h : Inv P s) {i : N} (hp : pre P s (.electCrash i)) (hc : Compat (eff P s (.electCrash i))) :
    Inv P (eff P s (.electCrash i)) := by
  have hL : Local s (eff P s (.electCrash i)) i (LeaseNet.boot P i (s.nd i).pterm (s.nd i).pvote (s.clk i)) := by
    refine ⟨rfl, rfl, rfl, rfl, rfl, rfl, rfl, fun m hm => List.mem_cons_of_mem _ hm, ?_⟩
    intro T x a ha
    rcases List.mem_cons.mp ha with h1 | h1
    · cases h1
    · exact h1
  have hE := hL.ext (Nat.le_refl _) (fun T _ _ => leads_role (Or.inl rfl))
  refine h.local hL hc (Nat.le_refl _) (fun T _ _ => leads_role (Or.inl rfl)) ?_ ?_ ?_ ?_ (fun hn => ?_)
  · intro T p x a ha
    rcases List.mem_cons.mp ha with h1 | h1
    · cases h1
    · exact Or.inl h1
  · intro T v c d ha
    rcases List.mem_cons.mp ha with h1 | h1
    · cases h1
    · exact Or.inl h1
  · intro T c d dt' ha
    rcases List.mem_cons.mp ha with h1 | h1
    · right
      injection h1 with _ _ h1
      exact ((h.n i).dis d dt' h1.symm).ext hE
    · exact Or.inl h1
  · intro T ha
    rcases List.mem_cons.mp ha with h1 | h1
    · cases h1
    · exact Or.inl h1
  · exact (NI.boot h.g (h.n i)).ext h.g hE
      ⟨fun _ h _ => h, fun _ _ h => h, fun _ h => h, fun T a ha => hL.ae T i a ha⟩ (Nat.le_refl _)

theorem retime_leads (i : N) (n : Nd N) (t d T : Nat) : leads (retime P i n t d) T = leads n T := by
  unfold retime; split <;> rfl

/-- New timeouts whose sum is not smaller. -/
theorem NI.retime {s : St N} {i : N} {n : Nd N} (hn : NI P s i n) {t d : Nat} (h1 : P.timeout + P.drift ≤ t + d)
    (h2 : t ≤ P.top) : NI P s i (retime P i n t d) := by
  unfold LeaseNet.retime
  split
  · exact { hn with
      flc := by show _ ≤ t * 2 + d; omega
      opt := h1 }
  · exact { hn with
      flc := h1
      llc := h2
      opt := h1 }

theorem inv_retime2 {s : St N} (h : Inv P s) {i : N} {t d : Nat} (hp : pre P s (.retime2 i t d)) (hc : Compat (eff P s (.retime2 i t d))) :
    Inv P (eff P s (.retime2 i t d)) := by
  refine h.setNd hc ?_ (fun T _ hl => by rw [retime_leads]; exact hl) (fun hn => hn.retime hp.1 hp.2)
  unfold retime; split <;> exact Nat.le_refl _

theorem inv_retime {s : St N} (h : Inv P s) {i : N} {t : Nat} (hp : pre P s (.retime i t)) (hc : Compat (eff P s (.retime i t))) :
    Inv P (eff P s (.retime i t)) := by
  refine h.setNd hc ?_ (fun T _ hl => by rw [retime_leads]; exact hl)
    (fun hn => hn.retime (by have := hn.opt; have := hp.1; omega) hp.2)
  unfold retime; split <;> exact Nat.le_refl _

end Braft.LeaseNet
