import Verif.LeaseNet
import Verif.Props.Lease
/-
Invariant of the timed lease model (Verif/LeaseNet.lean).
-/
set_option linter.unusedVariables false
set_option linter.unusedSimpArgs false
set_option linter.unusedSectionVars false

namespace Braft.LeaseNet
open Braft.Lease
open Braft.Raft (Conf confStepOk)

variable {N : Type} [DecidableEq N] {P : Params N}

theorem updF_same {β : Type} (f : N → β) (i : N) (v : β) : updF f i v i = v := by simp [updF]
theorem updF_other {β : Type} (f : N → β) {i j : N} (v : β) (h : j ≠ i) : updF f i v j = f j := by
  simp [updF, h]

theorem contact_iff {s : St N} {i v : N} {t ts : Nat} : contact s i t ts v = true ↔
    v = i ∨ ∃ r ∈ s.recv, r.t = t ∧ r.p = v ∧ r.x = i ∧ ts ≤ r.at_ := by
  unfold contact
  simp [List.any_eq_true]

/-- Contacts that support the lease of leader `i` of term `t` since `ts`. -/
def LOk (c : Conf N) (s : St N) (i : N) (t ts : Nat) : Prop := c.Quorum (contact s i t ts)

theorem quorum_mono {c : Conf N} {S T : N → Bool} (h : c.Quorum S) (hi : ∀ v, S v = true → T v = true) : c.Quorum T := by
  have hm : ∀ l : List N, Majority l S → Majority l T := by
    intro l hl
    unfold Majority at hl ⊢
    exact Nat.lt_of_lt_of_le hl (Nat.mul_le_mul_left 2 (List.countP_mono_left (fun x _ hx => hi x hx)))
  exact ⟨hm _ h.1, fun ho => hm _ (h.2 ho)⟩

theorem LOk.mono {c : Conf N} {s : St N} {i : N} {t ts ts' : Nat} (h : LOk c s i t ts) (hle : ts' ≤ ts) : LOk c s i t ts' := by
  refine quorum_mono h (fun v hv => ?_)
  rw [contact_iff] at hv ⊢
  rcases hv with hv | ⟨r, hr, h1, h2, h3, h4⟩
  · exact Or.inl hv
  · exact Or.inr ⟨r, hr, h1, h2, h3, by omega⟩

structure NI (P : Params N) (s : St N) (i : N) (n : Nd N) : Prop where
  pt : n.pterm ≤ n.term
  flc : P.timeout + P.drift ≤ n.fl.timeout + n.fl.drift
  llc : n.ll.timeout ≤ P.top
  opt : P.timeout + P.drift ≤ n.et + n.dr
  rcp : ∀ r ∈ s.recv, r.p = i → r.t ≤ n.pterm
  fls : ∀ r ∈ s.recv, r.p = i → r.vec i ≤ n.fl.ts ∨ Exp P s r ∨ Past s n.term r
  fll : ∀ y, n.fl.lastLeader = some y → (n.flT, y) ∈ s.won ∧ (∀ r ∈ s.recv, r.p = i → r.t ≤ n.flT) ∧
    n.flT ≤ n.pterm
  vt : ∀ T c, (T, i, c) ∈ s.votes →
    T ≤ n.pterm ∧ (T = n.pterm → n.pvote = some c) ∧ (T = n.term → n.vote = some c)
  pv : ∀ c, n.pvote = some c → (n.pterm, i, c) ∈ s.votes
  mv : ∀ c, n.vote = some c → c = i ∨ (n.term, i, c) ∈ s.votes
  el : ∀ e, n.elect = some e → e ≤ n.term ∧ (e = n.term → n.vote = some i) ∧ 2 ≤ e
  cand : n.role = .candidate → n.sent = true →
    n.pterm = n.term ∧ (n.term, i, i) ∈ s.votes ∧ 2 ≤ n.term
  sf : n.role = .candidate → n.self = true → VOk P s n.term i ∧ n.sent = true
  dis : ∀ d dt, n.dis = some (d, dt) → Over s dt
  wn : ∀ T, (T, i) ∈ s.won → T ≤ n.pterm ∧ (T = n.term → n.role ≠ .candidate)
  ld : leads n n.term = true → (n.term, i) ∈ s.won
  lr : n.ll.term ≠ 0 → n.role = .leader ∧ n.ll.term = n.term
  rt : leads n n.term = true → ∀ p, n.rts p ≤ n.st p ∨
    ∃ r ∈ s.recv, r.t = n.term ∧ r.p = p ∧ r.x = i ∧ n.rts p ≤ r.at_
  ac : leads n n.term = true → ∀ p ∈ n.acked,
    ∃ r ∈ s.recv, r.t = n.term ∧ r.p = p ∧ r.x = i ∧ n.st p ≤ r.at_
  aet : leads n n.term = true → ∀ a, Msg.ae n.term i a ∈ s.msgs → n.t0 ≤ a
  rd : leads n n.term = true → n.ready = true → LOk n.cc s i n.term n.t0
  pe : ∀ e ∈ n.pend, e ≤ n.ll.epoch
  pr : n.ll.term ≠ 0 → n.ll.epoch ∈ n.pend → n.ready = true
  ls : n.ll.term ≠ 0 → n.ll.ts ≠ 0 → LOk n.cur s i n.term n.ll.ts ∨
    (LOk n.cc s i n.term n.ll.ts ∧ n.ll.ts ≤ n.cuAt)
  t1 : 1 ≤ n.pterm
  mem : leads n n.term = true → ∀ p, p ∈ n.cur.peers ∨ p ∈ n.cur.old → p = i ∨ n.st p ≤ n.t0 ∨ p ∈ n.acked
  cf : leads n n.term = true → ∀ c, n.cu = some c → confStepOk n.cc c = true ∧ n.t0 ≤ n.cuAt ∧ n.ready = true
  tsc : n.ll.ts ≤ s.clk i
  rtc : ∀ p, n.rts p ≤ s.clk i
  t0c : n.t0 ≤ s.clk i
  rdy : n.ll.term ≠ 0 → n.ll.ts ≠ 0 → n.ready = true
  tr : n.role = .transferring → n.ready = true

structure GI (P : Params N) (s : St N) : Prop where
  ok : P.Ok
  pb : P.probe = true
  cp : Compat s
  hs : ∀ h ∈ s.hist, (∀ i, h i ≤ s.clk i) ∧ ∀ i j, s.clk i + h j ≤ s.clk j + h i + P.skew
  hc : s.clk ∈ s.hist
  ae : ∀ T x a, Msg.ae T x a ∈ s.msgs → (T, x) ∈ s.won ∧ a ≤ s.clk x
  rc : ∀ r ∈ s.recv, (r.t, r.x) ∈ s.won ∧ r.at_ ≤ r.vec r.x ∧ r.vec ∈ s.hist ∧ r.x ≠ r.p ∧
    Msg.ae r.t r.x r.at_ ∈ s.msgs
  ak : ∀ T p x a, Msg.ack T p x a ∈ s.msgs → ∃ r ∈ s.recv, r.t = T ∧ r.p = p ∧ r.x = x ∧ r.at_ = a
  vu : ∀ T p c c', (T, p, c) ∈ s.votes → (T, p, c') ∈ s.votes → c = c'
  vo : ∀ T p c, (T, p, c) ∈ s.votes → c ≠ p → VOk P s T p
  vr : ∀ T v c d, Msg.vr T v c d ∈ s.msgs → c ≠ v ∧ (T, v, c) ∈ s.votes ∧
    ∀ dt, d = some dt → (dt, v) ∈ s.won ∧ Left s dt v
  rv : ∀ T c d dt, Msg.rv T c (some (d, dt)) ∈ s.msgs → Over s dt
  tn : ∀ T, Msg.tn T ∈ s.msgs → Over s T
  ww : ∀ T c, (T, c) ∈ s.won → ∃ B : N → Bool, (s.wconf T).Quorum B ∧
    ∀ p, B p = true → (T, p, c) ∈ s.votes ∧ WOk P s T p
  w2 : ∀ T c, (T, c) ∈ s.won → 2 ≤ T

structure Inv (P : Params N) (s : St N) : Prop where
  g : GI P s
  n : ∀ i, NI P s i (s.nd i)

/-- How a step changes the state. -/
structure Ext (s s' : St N) : Prop where
  clk : ∀ i, s.clk i ≤ s'.clk i
  msgs : ∀ m ∈ s.msgs, m ∈ s'.msgs
  won : ∀ w ∈ s.won, w ∈ s'.won
  votes : ∀ w ∈ s.votes, w ∈ s'.votes
  recv : ∀ w ∈ s.recv, w ∈ s'.recv
  hist : ∀ w ∈ s.hist, w ∈ s'.hist
  recvn : ∀ r ∈ s'.recv, r ∈ s.recv ∨ (s.nd r.p).pterm ≤ r.t
  pt : ∀ i, (s.nd i).pterm ≤ (s'.nd i).pterm
  lf : ∀ T x, (T, x) ∈ s.won → Left s T x → Left s' T x
  wc : ∀ w ∈ s.won, s'.wconf w.1 = s.wconf w.1

theorem Exp.ext {s s' : St N} (h : Ext s s') {r : Rec N} (he : Exp P s r) : Exp P s' r :=
  Nat.le_trans he (h.clk _)

theorem Past.ext {s s' : St N} (h : Ext s s') {t t' : Nat} {r : Rec N} (hw : (r.t, r.x) ∈ s.won) (ht : t ≤ t')
    (hd : Past s t r) : Past s' t' r := by
  rcases hd with hd | ⟨w, h1, h2, h3⟩
  · exact Or.inl (h.lf _ _ hw hd)
  · exact Or.inr ⟨w, h.won w h1, h2, by omega⟩

theorem VOk.ext {s s' : St N} (hg : GI P s) (h : Ext s s') {T : Nat} {p : N}
    (ht : T ≤ (s.nd p).pterm) (hv : VOk P s T p) : VOk P s' T p := by
  intro r hr hrp hrt
  rcases h.recvn r hr with h3 | h3
  · rcases hv r h3 hrp hrt with h4 | h4
    · exact Or.inl (h4.ext h)
    · exact Or.inr (h4.ext h (hg.rc r h3).1 (Nat.le_refl _))
  · rw [hrp] at h3; omega

theorem WOk.ext {s s' : St N} (hg : GI P s) (h : Ext s s') {T : Nat} {p : N}
    (ht : T ≤ (s.nd p).pterm) (hv : WOk P s T p) : WOk P s' T p := by
  intro r hr hrp hrt
  rcases h.recvn r hr with h3 | h3
  · rcases hv r h3 hrp hrt with h4 | h4
    · exact Or.inl (h4.ext h)
    · exact Or.inr (h4.ext h (hg.rc r h3).1 (Nat.le_refl _))
  · rw [hrp] at h3; omega

theorem Over.ext {s s' : St N} (h : Ext s s') {T : Nat} (ho : Over s T) : Over s' T := by
  obtain ⟨y, h1, h2⟩ := ho
  exact ⟨y, h.won _ h1, h.lf _ _ h1 h2⟩

theorem LOk.ext {s s' : St N} (h : ∀ w ∈ s.recv, w ∈ s'.recv) {c : Conf N} {i : N} {T ts : Nat} (hl : LOk c s i T ts) :
    LOk c s' i T ts := by
  refine quorum_mono hl (fun v hv => ?_)
  rw [contact_iff] at hv ⊢
  rcases hv with h1 | ⟨r, hr, h1⟩
  · exact Or.inl h1
  · exact Or.inr ⟨r, h r hr, h1⟩

/-- Nothing new by node `i`. -/
structure Quiet (s s' : St N) (i : N) : Prop where
  recv : ∀ r ∈ s'.recv, r.p = i → r ∈ s.recv
  votes : ∀ T c, (T, i, c) ∈ s'.votes → (T, i, c) ∈ s.votes
  won : ∀ T, (T, i) ∈ s'.won → (T, i) ∈ s.won
  ae : ∀ T a, Msg.ae T i a ∈ s'.msgs → Msg.ae T i a ∈ s.msgs

theorem NI.ext {s s' : St N} (hg : GI P s) (h : Ext s s') {i : N} (hq : Quiet s s' i)
    {n : Nd N} (hn : NI P s i n) (hp : n.pterm ≤ (s.nd i).pterm) : NI P s' i n where
  pt := hn.pt
  flc := hn.flc
  llc := hn.llc
  opt := hn.opt
  rcp := fun r hr hi => hn.rcp r (hq.recv r hr hi) hi
  fls := by
    intro r hr hi
    have hr' := hq.recv r hr hi
    rcases hn.fls r hr' hi with h1 | h1 | h1
    · exact Or.inl h1
    · exact Or.inr (Or.inl (h1.ext h))
    · exact Or.inr (Or.inr (h1.ext h (hg.rc r hr').1 (Nat.le_refl _)))
  fll := fun y hy => ⟨h.won _ (hn.fll y hy).1,
    fun r hr hi => (hn.fll y hy).2.1 r (hq.recv r hr hi) hi, (hn.fll y hy).2.2⟩
  vt := fun T c hc => hn.vt T c (hq.votes T c hc)
  pv := fun c hc => h.votes _ (hn.pv c hc)
  mv := fun c hc => (hn.mv c hc).imp id (fun h1 => h.votes _ h1)
  el := hn.el
  cand := fun h1 h2 => ⟨(hn.cand h1 h2).1, h.votes _ (hn.cand h1 h2).2.1, (hn.cand h1 h2).2.2⟩
  sf := by
    intro h1 h2
    obtain ⟨h3, h4⟩ := hn.sf h1 h2
    refine ⟨h3.ext hg h ?_, h4⟩
    rw [← (hn.cand h1 h4).1]; exact hp
  dis := fun d dt hd => (hn.dis d dt hd).ext h
  wn := fun T hT => hn.wn T (hq.won T hT)
  ld := fun h1 => h.won _ (hn.ld h1)
  lr := hn.lr
  rt := by
    intro h1 p
    rcases hn.rt h1 p with h2 | ⟨r, hr, h2⟩
    · exact Or.inl h2
    · exact Or.inr ⟨r, h.recv r hr, h2⟩
  ac := by
    intro h1 p hp
    obtain ⟨r, hr, h2⟩ := hn.ac h1 p hp
    exact ⟨r, h.recv r hr, h2⟩
  aet := fun h1 a ha => hn.aet h1 a (hq.ae _ _ ha)
  rd := fun h1 h2 => (hn.rd h1 h2).ext h.recv
  pe := hn.pe
  pr := hn.pr
  ls := fun h1 h2 => (hn.ls h1 h2).imp (fun h3 => h3.ext h.recv) (fun h3 => ⟨h3.1.ext h.recv, h3.2⟩)
  t1 := hn.t1
  mem := hn.mem
  cf := hn.cf
  tsc := Nat.le_trans hn.tsc (h.clk i)
  rtc := fun p => Nat.le_trans (hn.rtc p) (h.clk i)
  t0c := Nat.le_trans hn.t0c (h.clk i)
  rdy := hn.rdy
  tr := hn.tr

/-- Voters have stored a term at least that of their vote. -/
theorem Inv.vote_le {s : St N} (h : Inv P s) {T : Nat} {p c : N} (hv : (T, p, c) ∈ s.votes) :
    T ≤ (s.nd p).pterm := ((h.n p).vt T c hv).1

/-- A term has one leader. -/
theorem Inv.won_unique {s : St N} (h : Inv P s) {T : Nat} {x y : N} (hx : (T, x) ∈ s.won)
    (hy : (T, y) ∈ s.won) : x = y := by
  have := h.g.cp.1 _ hx _ hy rfl
  exact (Prod.mk.inj this).2

/-- There is a first later term that was won. -/
theorem exists_next {l : List (Nat × N)} {T : Nat} {w : Nat × N} (hw : w ∈ l) (hlt : T < w.1) :
    ∃ w' ∈ l, T < w'.1 ∧ ∀ w'' ∈ l, T < w''.1 → w'.1 ≤ w''.1 := by
  induction hn : w.1 using Nat.strongRecOn generalizing w with
  | _ n ih =>
    by_cases hc : ∃ w'' ∈ l, T < w''.1 ∧ w''.1 < n
    · obtain ⟨w'', h1, h2, h3⟩ := hc
      exact ih w''.1 h3 h1 h2 rfl
    · refine ⟨w, hw, hlt, fun w'' h1 h2 => ?_⟩
      refine Classical.byContradiction fun h3 => hc ⟨w'', h1, h2, by omega⟩

/-- Once a later term has been won, the lease of a leader is over. -/
theorem Inv.dead {s : St N} (h : Inv P s) {T : Nat} {x : N} (hw : (T, x) ∈ s.won) (hr : (s.nd x).ready = true)
    {w : Nat × N} (hw' : w ∈ s.won) (hlt : T < w.1) : Dead P s T x := by
  rcases Bool.eq_false_or_eq_true (leads (s.nd x) T) with hl | hl
  rotate_left
  · exact Or.inl hl
  obtain ⟨w', h1, h2, h3⟩ := exists_next hw' hlt
  have hc := h.g.cp.2 _ hw hl hr _ h1 h2 h3
  obtain ⟨B, hB, hp⟩ := h.g.ww w'.1 w'.2 h1
  by_cases hL : Left s T x
  · exact Or.inl hL
  refine Or.inr ⟨B, _, hB, hc, fun p hpB => ?_⟩
  obtain ⟨h4, h5⟩ := hp p hpB
  have := h.vote_le h4
  refine ⟨by omega, fun r hr hrt hrp hrx => ?_⟩
  rcases h5 r hr hrp (by omega) with h6 | h6 | ⟨w'', h7, h8, h9⟩
  · exact h6
  · rw [hrt, hrx] at h6; exact absurd h6 hL
  · have := h3 w'' h7 (by omega)
    omega

/-- The global part after a step. -/
theorem Inv.gi_ext {s s' : St N} (h : Inv P s) (hE : Ext s s') (hcp : Compat s')
    (hs : ∀ h ∈ s'.hist, (∀ i, h i ≤ s'.clk i) ∧ ∀ i j, s'.clk i + h j ≤ s'.clk j + h i + P.skew)
    (hc : s'.clk ∈ s'.hist)
    (ae : ∀ T x a, Msg.ae T x a ∈ s'.msgs → Msg.ae T x a ∈ s.msgs ∨
      ((T, x) ∈ s'.won ∧ a ≤ s'.clk x))
    (rc : ∀ r ∈ s'.recv, r ∈ s.recv ∨ ((r.t, r.x) ∈ s'.won ∧ r.at_ ≤ r.vec r.x ∧
      r.vec ∈ s'.hist ∧ r.x ≠ r.p ∧ Msg.ae r.t r.x r.at_ ∈ s'.msgs))
    (ak : ∀ T p x a, Msg.ack T p x a ∈ s'.msgs → Msg.ack T p x a ∈ s.msgs ∨
      ∃ r ∈ s'.recv, r.t = T ∧ r.p = p ∧ r.x = x ∧ r.at_ = a)
    (vu : ∀ T p c, (T, p, c) ∈ s'.votes → (T, p, c) ∈ s.votes ∨
      ∀ c', (T, p, c') ∈ s'.votes → c' = c)
    (vo : ∀ T p c, (T, p, c) ∈ s'.votes → c ≠ p → (T, p, c) ∈ s.votes ∨ VOk P s' T p)
    (vr : ∀ T v c d, Msg.vr T v c d ∈ s'.msgs → Msg.vr T v c d ∈ s.msgs ∨
      (c ≠ v ∧ (T, v, c) ∈ s'.votes ∧ ∀ dt, d = some dt → (dt, v) ∈ s'.won ∧ Left s' dt v))
    (rv : ∀ T c d dt, Msg.rv T c (some (d, dt)) ∈ s'.msgs → Msg.rv T c (some (d, dt)) ∈ s.msgs ∨
      Over s' dt)
    (tn : ∀ T, Msg.tn T ∈ s'.msgs → Msg.tn T ∈ s.msgs ∨ Over s' T)
    (ww : ∀ T c, (T, c) ∈ s'.won → (T, c) ∈ s.won ∨ ∃ B : N → Bool, (s'.wconf T).Quorum B ∧
      ∀ p, B p = true → (T, p, c) ∈ s'.votes ∧ WOk P s' T p)
    (w2 : ∀ T c, (T, c) ∈ s'.won → (T, c) ∈ s.won ∨ 2 ≤ T) : GI P s' where
  ok := h.g.ok
  pb := h.g.pb
  cp := hcp
  hs := hs
  hc := hc
  ae := by
    intro T x a ha
    rcases ae T x a ha with h1 | h1
    · exact ⟨hE.won _ (h.g.ae T x a h1).1, Nat.le_trans (h.g.ae T x a h1).2 (hE.clk x)⟩
    · exact h1
  rc := by
    intro r hr
    rcases rc r hr with h1 | h1
    · obtain ⟨h2, h3, h4, h5, h6⟩ := h.g.rc r h1
      exact ⟨hE.won _ h2, h3, hE.hist _ h4, h5, hE.msgs _ h6⟩
    · exact h1
  ak := by
    intro T p x a ha
    rcases ak T p x a ha with h1 | h1
    · obtain ⟨r, hr, h2⟩ := h.g.ak T p x a h1
      exact ⟨r, hE.recv r hr, h2⟩
    · exact h1
  vu := by
    intro T p c c' h1 h2
    rcases vu T p c h1 with h3 | h3
    · rcases vu T p c' h2 with h4 | h4
      · exact h.g.vu T p c c' h3 h4
      · exact h4 c h1
    · exact (h3 c' h2).symm
  vo := by
    intro T p c h1 h2
    rcases vo T p c h1 h2 with h3 | h3
    · exact (h.g.vo T p c h3 h2).ext h.g hE (h.vote_le h3)
    · exact h3
  vr := by
    intro T v c d hd
    rcases vr T v c d hd with h1 | h1
    · obtain ⟨h2, h3, h4⟩ := h.g.vr T v c d h1
      exact ⟨h2, hE.votes _ h3, fun dt hdt =>
        ⟨hE.won _ (h4 dt hdt).1, hE.lf _ _ (h4 dt hdt).1 (h4 dt hdt).2⟩⟩
    · exact h1
  rv := by
    intro T c d dt hd
    rcases rv T c d dt hd with h1 | h1
    · exact (h.g.rv T c d dt h1).ext hE
    · exact h1
  tn := by
    intro T hT
    rcases tn T hT with h1 | h1
    · exact (h.g.tn T h1).ext hE
    · exact h1
  ww := by
    intro T c hw
    rcases ww T c hw with h1 | h1
    · obtain ⟨B, hB, h2⟩ := h.g.ww T c h1
      refine ⟨B, (hE.wc _ h1) ▸ hB, fun p hp => ⟨hE.votes _ (h2 p hp).1, ?_⟩⟩
      exact (h2 p hp).2.ext h.g hE (h.vote_le (h2 p hp).1)
    · exact h1
  w2 := by
    intro T c hw
    rcases w2 T c hw with h1 | h1
    · exact h.g.w2 T c h1
    · exact h1

/-- A step of node `i` that adds only messages other than AppendEntries to the history. -/
structure Local (s s' : St N) (i : N) (n' : Nd N) : Prop where
  nd : s'.nd = updF s.nd i n'
  clk : s'.clk = s.clk
  won : s'.won = s.won
  votes : s'.votes = s.votes
  recv : s'.recv = s.recv
  hist : s'.hist = s.hist
  wconf : s'.wconf = s.wconf
  msgs : ∀ m ∈ s.msgs, m ∈ s'.msgs
  ae : ∀ T x a, Msg.ae T x a ∈ s'.msgs → Msg.ae T x a ∈ s.msgs

theorem Local.ext {s s' : St N} {i : N} {n' : Nd N} (h : Local s s' i n')
    (hp : (s.nd i).pterm ≤ n'.pterm)
    (hl : ∀ T, (T, i) ∈ s.won → leads (s.nd i) T = false → leads n' T = false) : Ext s s' where
  clk := fun i => by rw [h.clk]; exact Nat.le_refl _
  msgs := h.msgs
  won := fun w hw => by rw [h.won]; exact hw
  votes := fun w hw => by rw [h.votes]; exact hw
  recv := fun w hw => by rw [h.recv]; exact hw
  hist := fun w hw => by rw [h.hist]; exact hw
  recvn := fun r hr => Or.inl (by rw [h.recv] at hr; exact hr)
  pt := by
    intro j
    rw [h.nd]
    by_cases hj : j = i
    · subst hj; rw [updF_same]; exact hp
    · rw [updF_other _ _ hj]; exact Nat.le_refl _
  lf := by
    intro T x hw hL
    unfold Left at hL ⊢
    rw [h.nd]
    by_cases hj : x = i
    · subst hj; rw [updF_same]; exact hl T hw hL
    · rw [updF_other _ _ hj]; exact hL
  wc := fun w _ => by rw [h.wconf]

/-- Invariant after such a step, from the part about the acting node and the new messages. -/
theorem Inv.local {s s' : St N} (h : Inv P s) {i : N} {n' : Nd N} (hL : Local s s' i n') (hcp : Compat s')
    (hp : (s.nd i).pterm ≤ n'.pterm)
    (hl : ∀ T, (T, i) ∈ s.won → leads (s.nd i) T = false → leads n' T = false)
    (ak : ∀ T p x a, Msg.ack T p x a ∈ s'.msgs → Msg.ack T p x a ∈ s.msgs ∨
      ∃ r ∈ s'.recv, r.t = T ∧ r.p = p ∧ r.x = x ∧ r.at_ = a)
    (vr : ∀ T v c d, Msg.vr T v c d ∈ s'.msgs → Msg.vr T v c d ∈ s.msgs ∨
      (c ≠ v ∧ (T, v, c) ∈ s'.votes ∧ ∀ dt, d = some dt → (dt, v) ∈ s'.won ∧ Left s' dt v))
    (rv : ∀ T c d dt, Msg.rv T c (some (d, dt)) ∈ s'.msgs → Msg.rv T c (some (d, dt)) ∈ s.msgs ∨
      Over s' dt)
    (tn : ∀ T, Msg.tn T ∈ s'.msgs → Msg.tn T ∈ s.msgs ∨ Over s' T)
    (hn : NI P s' i (s.nd i) → NI P s' i n') : Inv P s' := by
  have hE := hL.ext hp hl
  have hq : ∀ j, Quiet s s' j := fun j => {
    recv := fun r hr _ => by rw [hL.recv] at hr; exact hr
    votes := fun T c hc => by rw [hL.votes] at hc; exact hc
    won := fun T hT => by rw [hL.won] at hT; exact hT
    ae := fun T a ha => hL.ae T j a ha }
  refine ⟨h.gi_ext hE hcp ?_ ?_ (fun T x a ha => Or.inl (hL.ae T x a ha))
    (fun r hr => Or.inl (by rw [hL.recv] at hr; exact hr)) ak
    (fun T p c hc => Or.inl (by rw [hL.votes] at hc; exact hc))
    (fun T p c hc _ => Or.inl (by rw [hL.votes] at hc; exact hc)) vr rv tn
    (fun T c hc => Or.inl (by rw [hL.won] at hc; exact hc))
    (fun T c hc => Or.inl (by rw [hL.won] at hc; exact hc)), ?_⟩
  · rw [hL.hist, hL.clk]; exact h.g.hs
  · rw [hL.hist, hL.clk]; exact h.g.hc
  · intro j
    rw [hL.nd]
    by_cases hj : j = i
    · subst hj; rw [updF_same]
      exact hn ((h.n j).ext h.g hE (hq j) (Nat.le_refl _))
    · rw [updF_other _ _ hj]
      exact (h.n j).ext h.g hE (hq j) (Nat.le_refl _)

/-- Only the node changes. -/
theorem Inv.setNd {s : St N} (h : Inv P s) {i : N} {n' : Nd N} (hcp : Compat (setNd s i n'))
    (hp : (s.nd i).pterm ≤ n'.pterm)
    (hl : ∀ T, (T, i) ∈ s.won → leads (s.nd i) T = false → leads n' T = false)
    (hn : NI P (setNd s i n') i (s.nd i) → NI P (setNd s i n') i n') :
    Inv P (setNd s i n') := by
  refine h.local (n' := n') (i := i) ?_ hcp hp hl (fun _ _ _ _ h => Or.inl h) (fun _ _ _ _ h => Or.inl h)
    (fun _ _ _ _ h => Or.inl h) (fun _ h => Or.inl h) hn
  exact ⟨rfl, rfl, rfl, rfl, rfl, rfl, rfl, fun _ h => h, fun _ _ _ h => h⟩

end Braft.LeaseNet
