import Verif.Repl.ReplicatorInv
/-! The invariant holds in every run; what holds also when the peer leaves readonly mode. -/
set_option linter.unusedSectionVars false
set_option linter.unusedSimpArgs false
set_option linter.unusedVariables false

namespace Braft.Repl

/-- What sending does not touch. -/
structure Frame (s t : State) : Prop where
  min : t.min = s.min
  catching : t.catching = s.catching
  ran : t.ran = s.ran
  nwait : t.nwait = s.nwait
  acks : t.acks = s.acks
  snaps : t.snaps = s.snaps
  counted : t.counted = s.counted
  tnow : t.tnow = s.tnow
  tni : t.tni = s.tni
  hasSucc : t.hasSucc = s.hasSucc
  alive : t.alive = s.alive
  last : t.last = s.last
  asked : t.asked = s.asked

theorem Frame.refl (s : State) : Frame s s := ⟨rfl, rfl, rfl, rfl, rfl, rfl, rfl, rfl, rfl, rfl, rfl, rfl, rfl⟩

theorem Frame.trans {s t u : State} (h : Frame s t) (g : Frame t u) : Frame s u :=
  ⟨g.1.trans h.1, g.2.trans h.2, g.3.trans h.3, g.4.trans h.4, g.5.trans h.5, g.6.trans h.6, g.7.trans h.7, g.8.trans h.8,
   g.9.trans h.9, g.10.trans h.10, g.11.trans h.11, g.12.trans h.12, g.13.trans h.13⟩

theorem frame_block (s : State) : Frame s s.block := by
  unfold State.block; split
  · exact Frame.refl s
  · exact ⟨rfl, rfl, rfl, rfl, rfl, rfl, rfl, rfl, rfl, rfl, rfl, rfl, rfl⟩

theorem frame_reset (s : State) : Frame s s.reset :=
  ⟨by simp [State.reset, State.min], rfl, rfl, rfl, rfl, rfl, rfl, rfl, rfl, rfl, rfl, rfl, rfl⟩

theorem frame_unfilled (s : State) (p : Nat) : Frame s (s.unfilled p) := ⟨rfl, rfl, rfl, rfl, rfl, rfl, rfl, rfl, rfl, rfl, rfl, rfl, rfl⟩

theorem frame_install (s : State) (w : Bool) (io : IOut) : Frame s (s.install w io) := by
  unfold State.install
  split
  · exact frame_block s
  · split
    · exact Frame.refl s
    · cases io with
      | block => exact Frame.trans (t := { s with st := .installing }) ⟨rfl, rfl, rfl, rfl, rfl, rfl, rfl, rfl, rfl, rfl, rfl, rfl, rfl⟩ (frame_block _)
      | fail => exact ⟨rfl, rfl, rfl, rfl, rfl, rfl, rfl, rfl, rfl, rfl, rfl, rfl, rfl⟩
      | metaFail => exact ⟨rfl, rfl, rfl, rfl, rfl, rfl, rfl, rfl, rfl, rfl, rfl, rfl, rfl⟩
      | sent => exact ⟨rfl, rfl, rfl, rfl, rfl, rfl, rfl, rfl, rfl, rfl, rfl, rfl, rfl⟩

theorem frame_sendEmpty (s : State) (w : Bool) (io : IOut) : Frame s (s.sendEmpty w io) := by
  unfold State.sendEmpty
  split
  · exact ⟨rfl, rfl, rfl, rfl, rfl, rfl, rfl, rfl, rfl, rfl, rfl, rfl, rfl⟩
  · exact (frame_unfilled s _).trans (frame_install _ w io)

theorem frame_waitMore (s : State) (a b : Nat) : Frame s (s.waitMore a b) := by
  unfold State.waitMore
  dsimp only
  have h1 : Frame s (if (!s.waitId) = true ∧ s.flying < a ∧ s.fly.length < b then ({ s with waitId := true, waits := s.waits + 1, cancelled := false } : State) else s) := by
    split
    · exact ⟨rfl, rfl, rfl, rfl, rfl, rfl, rfl, rfl, rfl, rfl, rfl, rfl, rfl⟩
    · exact Frame.refl s
  generalize (if (!s.waitId) = true ∧ s.flying < a ∧ s.fly.length < b then ({ s with waitId := true, waits := s.waits + 1, cancelled := false } : State) else s) = t at h1 ⊢
  refine h1.trans ?_
  split
  · exact ⟨rfl, rfl, rfl, rfl, rfl, rfl, rfl, rfl, rfl, rfl, rfl, rfl, rfl⟩
  · exact Frame.refl _

theorem frame_sendEntries (s : State) (w : Bool) (e : Env) : Frame s (s.sendEntries w e) := by
  unfold State.sendEntries
  split
  · exact Frame.refl s
  · split
    · exact (frame_unfilled s _).trans ((frame_reset _).trans (frame_install _ w e.io))
    · dsimp only
      generalize Nat.min e.n (Nat.min s.avail (e.maxSize - s.flying)) = k
      split
      · split
        · exact (frame_reset s).trans (frame_install _ w e.io)
        · split
          · split
            · exact ⟨rfl, rfl, rfl, rfl, rfl, rfl, rfl, rfl, rfl, rfl, rfl, rfl, rfl⟩
            · exact Frame.refl s
          · exact frame_waitMore s _ _
      · refine Frame.trans ?_ (frame_waitMore _ _ _)
        exact ⟨by simp [State.min, Nat.add_sub_add_right], rfl, rfl, rfl, rfl, rfl, rfl, rfl, rfl, rfl, rfl, rfl, rfl⟩

/-- What notifying does not touch. -/
theorem notifyOk_eq (s : State) (b : Bool) : ∃ c r, s.notifyOk b = { s with catching := c, ran := r } := by
  unfold State.notifyOk
  cases hc : s.catching with
  | none => exact ⟨s.catching, s.ran, rfl⟩
  | some c =>
    dsimp only
    split
    · exact ⟨s.catching, s.ran, rfl⟩
    · split
      · exact ⟨_, s.ran, rfl⟩
      · exact ⟨none, _, rfl⟩

theorem notifyErr_eq (s : State) (r : Caught) : ∃ c x, s.notifyErr r = { s with catching := c, ran := x } := by
  unfold State.notifyErr
  cases hc : s.catching with
  | none => exact ⟨s.catching, s.ran, rfl⟩
  | some c => exact ⟨none, _, rfl⟩

/-- The queue after a success, before the closure is notified. -/
def State.poppedTo (s : State) (q : Req) : State :=
  let s1 : State := if 0 < q.n then { s with counted := (s.min, q.prev + q.n) :: s.counted } else s
  { s1 with flying := s1.flying - poppedSize s1.fly (q.prev + 1), fly := popped s1.fly (q.prev + 1), hasSucc := true }

/-- TimeoutNow is sent if the index has been reached. -/
def State.fire (s : State) : State := if 0 < s.tni ∧ s.tni < s.min then s.timeoutNow s.tni else s

theorem succeeded_eq (s : State) (q : Req) (b : Bool) : s.succeeded q b = ((s.poppedTo q).notifyOk b).fire := rfl

theorem poppedTo_counted (s : State) (q : Req) : (s.poppedTo q).counted = if 0 < q.n then (s.min, q.prev + q.n) :: s.counted else s.counted := by
  unfold State.poppedTo; dsimp only; split <;> rfl

theorem Inv.poppedTo {s : State} (h : Inv s) {r : Fly} {q : Req} (hr : r ∈ s.fly) (hq1 : q.prev + 1 = r.first) (hq2 : q.n = r.size)
    (ha : q ∈ s.acks) : Inv (s.poppedTo q) ∧ Open (s.poppedTo q) ∧ Acked s.acks s.snaps ((s.poppedTo q).min - 1) ∧ (s.poppedTo q).min = q.prev + q.n + 1 := by
  obtain ⟨c1, c2, c3, c4, c5⟩ := h.pops hr
  have hm := State.min_eq h
  have hsum := c1.sum
  have hne : s.fly ≠ [] := by intro h'; rw [h'] at hr; simp at hr
  obtain ⟨hst, hcont, hins⟩ := h.fly hne
  have hend := h.flyend r hr
  have hm0 := h.min0
  have hmin : ∀ t : State, t.next = s.next → t.flying = s.flying - poppedSize s.fly r.first → t.min = r.first + r.size := by
    intro t h1 h2; unfold State.min; rw [h1, h2]; omega
  have hack : Acked s.acks s.snaps (r.first + r.size - 1) := Or.inr (Or.inl ⟨q, ha, by omega⟩)
  have hI : Inv (s.poppedTo q) := by
    have hcnt : ∀ p ∈ (s.poppedTo q).counted, p.1 ≤ p.2 ∧ p.2 ≤ s.last ∧ ∃ q ∈ s.acks, 0 < q.n ∧ p.2 = q.prev + q.n := by
      rw [poppedTo_counted]
      split
      · intro p hp
        rcases List.mem_cons.1 hp with e | hp
        · subst e; exact ⟨by show s.min ≤ q.prev + q.n; omega, by show q.prev + q.n ≤ s.last; omega, q, ha, by assumption, rfl⟩
        · exact h.cnt p hp
      · exact h.cnt
    have key : ∀ t : State, t = s.poppedTo q → Inv t := by
      intro t ht
      unfold State.poppedTo at ht
      dsimp only at ht
      by_cases hn : 0 < q.n
      · rw [if_pos hn] at ht
        have e : t = { s with counted := (s.min, q.prev + q.n) :: s.counted, flying := s.flying - poppedSize s.fly r.first, fly := popped s.fly r.first, hasSucc := true } := by rw [ht, ← hq1]
        have hmt : t.min = r.first + r.size := hmin t (by rw [e]) (by rw [e])
        subst e
        exact { h with
          min0 := by rw [hmt]; omega
          chain := by rw [hmt]; exact c1
          req := fun x hx => h.req x (c5 x hx)
          flyc := fun x hx => h.flyc x (c5 x hx)
          flyend := fun x hx => h.flyend x (c5 x hx)
          zero := fun x hx hz => by have := c4 x hx; omega
          fly := fun _ => ⟨hst, hcont, hins⟩
          blk := fun hb => absurd (hst.symm.trans hb) (by decide)
          cont := fun hc => absurd hcont hc
          succ := fun _ => by rw [hmt]; exact hack
          cnt := by rw [poppedTo_counted, if_pos hn] at hcnt; exact hcnt }
      · rw [if_neg hn] at ht
        have e : t = { s with flying := s.flying - poppedSize s.fly r.first, fly := popped s.fly r.first, hasSucc := true } := by rw [ht, ← hq1]
        have hmt : t.min = r.first + r.size := hmin t (by rw [e]) (by rw [e])
        subst e
        exact { h with
          min0 := by rw [hmt]; omega
          chain := by rw [hmt]; exact c1
          req := fun x hx => h.req x (c5 x hx)
          flyc := fun x hx => h.flyc x (c5 x hx)
          flyend := fun x hx => h.flyend x (c5 x hx)
          zero := fun x hx hz => by have := c4 x hx; omega
          fly := fun _ => ⟨hst, hcont, hins⟩
          blk := fun hb => absurd (hst.symm.trans hb) (by decide)
          cont := fun hc => absurd hcont hc
          succ := fun _ => by rw [hmt]; exact hack }
    exact key _ rfl
  have hfl : (s.poppedTo q).fly = popped s.fly r.first ∧ (s.poppedTo q).flying = s.flying - poppedSize s.fly r.first ∧
      (s.poppedTo q).next = s.next ∧ (s.poppedTo q).installs = s.installs ∧ (s.poppedTo q).conts = s.conts := by
    unfold State.poppedTo; dsimp only; rw [← hq1]; split <;> exact ⟨rfl, rfl, rfl, rfl, rfl⟩
  have hmm : (s.poppedTo q).min = r.first + r.size := hmin _ hfl.2.2.1 hfl.2.1
  refine ⟨hI, ⟨?_, ?_, ?_⟩, ?_, by omega⟩
  · rw [hfl.1]; exact c4
  · rw [hfl.2.2.2.1]; exact hins
  · rw [hfl.2.2.2.2]; exact hcont
  · rw [hmm]; exact hack

theorem poppedTo_acks (s : State) (q : Req) : (s.poppedTo q).acks = s.acks ∧ (s.poppedTo q).snaps = s.snaps := by
  unfold State.poppedTo; dsimp only; split <;> exact ⟨rfl, rfl⟩

theorem Inv.fire {s : State} (h : Inv s) (ha : Acked s.acks s.snaps (s.min - 1)) : Inv s.fire := by
  unfold State.fire
  split
  · rename_i hc; exact h.timeoutNow _ (ha.le (by omega))
  · exact h

theorem fire_frame (s : State) : s.fire.min = s.min ∧ s.fire.fly = s.fly ∧ s.fire.installs = s.installs ∧ s.fire.conts = s.conts ∧
    s.fire.counted = s.counted ∧ s.fire.acks = s.acks ∧ s.fire.catching = s.catching ∧ s.fire.ran = s.ran ∧ s.fire.nwait = s.nwait ∧ s.fire.snaps = s.snaps := by
  unfold State.fire; split <;> exact ⟨rfl, rfl, rfl, rfl, rfl, rfl, rfl, rfl, rfl, rfl⟩

theorem Inv.succeeded {s : State} (h : Inv s) {r : Fly} {q : Req} (hr : r ∈ s.fly) (hq1 : q.prev + 1 = r.first) (hq2 : q.n = r.size)
    (ha : q ∈ s.acks) (b : Bool) : Inv (s.succeeded q b) ∧ Open (s.succeeded q b) := by
  obtain ⟨h1, h2, h3, h4⟩ := h.poppedTo hr hq1 hq2 ha
  rw [succeeded_eq]
  have hacc := h3
  have e := poppedTo_acks s q
  rw [← e.1, ← e.2] at hacc
  have h5 := h1.notifyOk hacc b
  obtain ⟨c, x, e2⟩ := notifyOk_eq (s.poppedTo q) b
  have hacc2 : Acked ((s.poppedTo q).notifyOk b).acks ((s.poppedTo q).notifyOk b).snaps (((s.poppedTo q).notifyOk b).min - 1) := by
    rw [e2]; exact hacc
  refine ⟨h5.fire hacc2, ?_⟩
  obtain ⟨f1, f2, f3, f4, _⟩ := fire_frame ((s.poppedTo q).notifyOk b)
  refine ⟨?_, ?_, ?_⟩
  · rw [f2, e2]; exact h2.pos
  · rw [f3, e2]; exact h2.inst
  · rw [f4, e2]; exact h2.conts

theorem Inv.backoff {s : State} (h : Inv s) (l : Nat) : Inv (s.backoff l) := by
  have hr := h.reset
  have hmin : s.reset.min = s.reset.next := by simp [State.reset, State.min]
  have hle : s.reset.next ≤ s.last + 1 := hr.next1
  have hpos := hr.min0
  have key : ∀ n, 0 < n → n ≤ s.reset.next → Inv { s.reset with next := n } := by
    intro n h0 h1
    have hmn : ({ s.reset with next := n } : State).min = n := by unfold State.min State.reset; simp
    exact { hr with
      min0 := by rw [hmn]; exact h0
      next1 := by show n ≤ s.last + 1; omega
      chain := by rw [hmn]; exact rfl
      succ := by
        intro hs; rw [hmn]
        exact (hr.succ hs).le (by omega) }
  unfold State.backoff
  dsimp only
  split
  · exact key _ (by omega) (by omega)
  · split
    · exact key _ (by omega) (by omega)
    · exact hr

theorem Inv.returned {s : State} (h : Inv s) (T : Nat) (w : Bool) {q : Req} (hq : q ∈ s.out) (r : Resp) (e : Env) :
    Inv (s.returned T w q r e) := by
  unfold State.returned
  dsimp only
  generalize hacks : r.acks T q s.acks = A
  have hsub : ∀ x ∈ s.acks, x ∈ A := by
    intro x hx; rw [← hacks]
    cases r with
    | failed => exact hx
    | resp b t l =>
      cases b with
      | false => exact hx
      | true => unfold Resp.acks; dsimp only; split
                · simp [hx]
                · exact hx
  have h0 : Inv { s with out := s.out.erase q, acks := A } :=
    { h with
      req := fun r hr x hx => h.req r hr x (List.mem_of_mem_erase hx)
      outc := fun x hx => h.outc x (List.mem_of_mem_erase hx)
      succ := fun hs => (h.succ hs).mono hsub (fun _ hi => hi)
      tn := fun i hi => (h.tn i hi).mono hsub (fun _ hi => hi)
      cr := fun x hx l hl => (h.cr x hx l hl).mono hsub (fun _ hi => hi)
      cc := fun c hc l hl => (h.cc c hc l hl).mono hsub (fun _ hi => hi)
      cnt := fun p hp => by
        obtain ⟨a, b, y, hy, hz⟩ := h.cnt p hp
        exact ⟨a, b, y, hsub y hy, hz⟩ }
  by_cases hal : (!s.alive) = true
  · rw [if_pos hal]; exact h0
  · rw [if_neg hal]
    have h1 : Inv { s with out := s.out.erase q, acks := A, bad := s.bad || !(decide (0 < ({ s with out := s.out.erase q, acks := A } : State).min)) } :=
      { h0 with
        nbad := by
          show (s.bad || !(decide (0 < s.min))) = false
          rw [h.nbad]; simp [h.min0] }
    by_cases hv : (!valid s.fly (q.prev + 1) q.call) = true
    · rw [if_pos hv]; exact h1
    · rw [if_neg hv]
      have hv : valid s.fly (q.prev + 1) q.call = true := by simpa using hv
      obtain ⟨f, hf, hc, hle⟩ := valid_mem hv
      obtain ⟨hq1, hq2⟩ := h.req f hf q hq hc.symm
      have hne : s.fly ≠ [] := by intro h'; rw [h'] at hf; simp at hf
      obtain ⟨hst, hcont, hins⟩ := h.fly hne
      have hnb : s.st ≠ .blocking := by rw [hst]; decide
      cases r with
      | failed => exact h1.reset.block ⟨rfl, hins, Or.inl rfl⟩ hcont
      | resp b t l =>
        cases b with
        | false =>
          dsimp only
          by_cases ht : T < t
          · rw [if_pos ht]
            exact { (h1.reset.notifyErr .perm (fun l => by intro h'; nomatch h')) with }
          · rw [if_neg ht]
            refine (h1.backoff l).sendEmpty ?_ w e.io
            unfold State.backoff
            dsimp only
            split
            · exact ⟨⟨rfl, hins, Or.inl rfl⟩, hnb, hcont⟩
            · split
              · exact ⟨⟨rfl, hins, Or.inl rfl⟩, hnb, hcont⟩
              · exact ⟨⟨rfl, hins, Or.inl rfl⟩, hnb, hcont⟩
        | true =>
          dsimp only
          by_cases ht : t ≠ T
          · rw [if_pos ht]; exact h1.reset
          · rw [if_neg ht]
            have ht : t = T := by omega
            have hmem : q ∈ A := by rw [← hacks]; simp [Resp.acks, ht]
            obtain ⟨i1, i2⟩ := h1.succeeded (q := q) (r := f) hf hq1 hq2 hmem e.timerRuns
            exact i1.sendEntries i2 w e

theorem Inv.installed {s : State} (h : Inv s) (w : Bool) {i : Nat} (hi : i ∈ s.installs) (ok : Bool) (e : Env) :
    Inv (s.installed w i ok e) := by
  have hne : s.installs ≠ [] := by intro h'; rw [h'] at hi; simp at hi
  obtain ⟨hlen, hrd, hst, hcont, hcw⟩ := h.inst hne
  have hfly : s.fly = [] := by
    cases hl : s.fly with
    | nil => rfl
    | cons x l => exact absurd (h.fly (by rw [hl]; simp)).2.2 hne
  have hil := h.instle i hi
  have her : s.installs.erase i = [] := by
    match hs : s.installs, hlen, hi with
    | [x], _, hi => simp at hi; simp [hi]
  have hsub : ∀ x ∈ s.snaps, x ∈ (if ok then i :: s.snaps else s.snaps) := by
    intro x hx; split
    · simp [hx]
    · exact hx
  obtain ⟨hfl0, _⟩ := h.flying_nil hfly
  unfold State.installed
  dsimp only
  rw [her]
  have h0 : ∀ b, Inv { s with installs := [], snaps := (if ok then i :: s.snaps else s.snaps), reader := b } := fun b =>
    { h with
      fly := fun hf => absurd hfly hf
      blk := fun hb => absurd (hst.symm.trans hb) (by decide)
      cont := fun hc => absurd hcont hc
      inst := fun hi => absurd rfl hi
      instle := fun x hx => by simp at hx
      succ := fun hs => (h.succ hs).mono (fun _ hx => hx) hsub
      tn := fun x hx => (h.tn x hx).mono (fun _ hx => hx) hsub
      cr := fun x hx l hl => (h.cr x hx l hl).mono (fun _ hx => hx) hsub
      cc := fun c hc l hl => (h.cc c hc l hl).mono (fun _ hx => hx) hsub }
  by_cases hal : (!s.alive) = true
  · rw [if_pos hal]; exact h0 s.reader
  · rw [if_neg hal]
    by_cases hok : (!ok) = true
    · rw [if_pos hok]; exact (h0 false).block ⟨hfly, rfl, hcw⟩ hcont
    · rw [if_neg hok]
      have hok : ok = true := by simpa using hok
      subst hok
      have hacc : Acked s.acks (i :: s.snaps) i := Or.inr (Or.inr ⟨i, by simp, Nat.le_refl _⟩)
      have hmn : ∀ t : State, t.next = i + 1 → t.flying = s.flying → t.min = i + 1 := by
        intro t h1 h2; unfold State.min; rw [h1, h2, hfl0]; rfl
      have h1 : Inv ({ s with installs := [], snaps := (if true = true then i :: s.snaps else s.snaps), reader := false, next := i + 1, hasSucc := true } : State) := by
        have h00 := h0 false
        have hmt : ({ s with installs := [], snaps := (if true = true then i :: s.snaps else s.snaps), reader := false, next := i + 1, hasSucc := true } : State).min = i + 1 :=
          hmn _ rfl rfl
        exact { h00 with
          min0 := by rw [hmt]; omega
          next1 := by show i + 1 ≤ s.last + 1; omega
          chain := by rw [hmt, hfly]; exact rfl
          succ := fun _ => by rw [hmt]; exact hacc }
      generalize hs2 : ({ s with installs := [], snaps := (if true = true then i :: s.snaps else s.snaps), reader := false, next := i + 1, hasSucc := true } : State) = u at h1
      have e2 : u.fly = [] ∧ u.installs = [] ∧ u.conts = 0 ∧ u.hasSucc = true := by
        subst hs2; exact ⟨hfly, rfl, hcont, rfl⟩
      have h3 := h1.notifyOk (h1.succ e2.2.2.2) e.timerRuns
      obtain ⟨c, x, e3⟩ := notifyOk_eq u e.timerRuns
      have h4 : Inv ((u.notifyOk e.timerRuns).fire) := h3.fire (h3.succ (by rw [e3]; exact e2.2.2.2))
      obtain ⟨f1, f2, f3, f4, _⟩ := fire_frame (u.notifyOk e.timerRuns)
      refine h4.sendEntries ⟨?_, ?_, ?_⟩ w e
      · rw [f2, e3]; show ∀ r ∈ u.fly, _; rw [e2.1]; simp
      · rw [f3, e3]; exact e2.2.1
      · rw [f4, e3]; exact e2.2.2.1

theorem Inv.wake {s : State} (h : Inv s) (w : Bool) (e : Env) : Inv (s.wake w e) := by
  unfold State.wake
  by_cases hz : s.waits = 0
  · rw [if_pos hz]; exact h
  · rw [if_neg hz]
    dsimp only
    have hq : ∀ {P : Prop}, (s.cancelled = true ∨ s.waits = 0) → (s.cancelled = true ∨ s.waits - 1 = 0) := by
      intro _ hc; rcases hc with h1 | h1
      · exact Or.inl h1
      · exact Or.inr (by omega)
    have h0 : Inv { s with waits := s.waits - 1 } :=
      { h with
        zero := fun r hr hz => ⟨(h.zero r hr hz).1, hq (P := True) (h.zero r hr hz).2⟩
        blk := fun hb => by obtain ⟨a, b, c, d, f⟩ := h.blk hb; exact ⟨a, b, c, d, hq (P := True) f⟩
        cont := fun hb => by obtain ⟨a, c, d, f⟩ := h.cont hb; exact ⟨a, c, d, hq (P := True) f⟩
        inst := fun hb => by obtain ⟨a, b, c, d, f⟩ := h.inst hb; exact ⟨a, b, c, d, hq (P := True) f⟩ }
    by_cases hc : (!s.alive) = true ∨ s.cancelled = true
    · rw [if_pos hc]; exact h0
    · rw [if_neg hc]
      have hnc : ¬ (s.cancelled = true ∨ s.waits = 0) := by
        intro h'; rcases h' with h' | h'
        · exact hc (Or.inr h')
        · exact hz h'
      have h1 : Inv { s with waits := s.waits - 1, waitId := false } := { h0 with }
      refine h1.sendEntries ⟨?_, ?_, ?_⟩ w e
      · intro r hr
        rcases Nat.eq_zero_or_pos r.size with h2 | h2
        · exact absurd (h.zero r hr h2).2 hnc
        · exact h2
      · cases hl : s.installs with
        | nil => rfl
        | cons x l => exact absurd (h.inst (by rw [hl]; simp)).2.2.2.2 hnc
      · rcases Nat.eq_zero_or_pos s.conts with h2 | h2
        · exact h2
        · exact absurd (h.cont (by omega)).2.2.2 hnc

theorem Inv.unblock {s : State} (h : Inv s) : Inv s.unblock := by
  unfold State.unblock
  by_cases hz : s.timers = 0 ∨ s.alive = false
  · rw [if_pos hz]; exact h
  · rw [if_neg hz]
    have hb : s.st = .blocking := by
      by_cases hb : s.st = .blocking
      · exact hb
      · exact absurd (Or.inl (h.nblk hb)) hz
    obtain ⟨a, b, c⟩ := h.blk hb
    exact { h with
      fly := fun hf => absurd c.1 hf
      blk := fun hb => nomatch hb
      nblk := fun _ => by show s.timers - 1 = 0; omega
      cont := fun _ => ⟨by show s.conts + 1 = 1; omega, c⟩
      inst := fun hi => absurd c.2.1 hi }

theorem Inv.resume {s : State} (h : Inv s) (w : Bool) (io : IOut) : Inv (s.resume w io) := by
  unfold State.resume
  by_cases hz : s.conts = 0 ∨ s.alive = false
  · rw [if_pos hz]; exact h
  · rw [if_neg hz]
    dsimp only
    have hcne : s.conts ≠ 0 := fun h' => hz (Or.inl h')
    obtain ⟨a, c⟩ := h.cont hcne
    have hnb : s.st ≠ .blocking := fun hb => hcne (h.blk hb).2.1
    have hc0 : s.conts - 1 = 0 := by omega
    have h0 : Inv { s with conts := s.conts - 1 } :=
      { h with
        fly := fun hf => absurd c.1 hf
        blk := fun hb => absurd hb hnb
        cont := fun hb => absurd hc0 hb
        inst := fun hi => absurd c.2.1 hi }
    by_cases hw : s.waitId = true
    · rw [if_pos hw]; exact h0
    · rw [if_neg hw]; exact h0.sendEmpty ⟨c, hnb, hc0⟩ w io

theorem Inv.waitCaughtUp {s : State} (h : Inv s) (m : Nat) : Inv (s.waitCaughtUp m) := by
  unfold State.waitCaughtUp
  dsimp only
  have hadd : ∀ x : Nat × Nat × Caught, (∀ l, x.2.2 = .ok l → Acked s.acks s.snaps (l - x.2.1)) → Inv { s with nwait := s.nwait + 1, ran := x :: s.ran } := fun x hx =>
    { h with
      cr := fun y hy l hl => by
        rcases List.mem_cons.1 hy with e | hy
        · subst e; exact hx l hl
        · exact h.cr y hy l hl }
  split
  · exact hadd (s.nwait, m, .inval) (fun l hl => nomatch hl)
  · split
    · exact hadd (s.nwait, m, .inval) (fun l hl => nomatch hl)
    · split
      · rename_i hc
        refine hadd (s.nwait, m, .ok s.last) (fun l hl => ?_)
        cases hl
        have hcu : s.isCatchup m = true := hc.2
        unfold State.isCatchup at hcu; simp at hcu
        exact (h.succ hc.1).le (by show s.last - m ≤ _; omega)
      · exact { h with
          cc := fun c hc l hl => by
            have hc : some (⟨s.nwait, m, none⟩ : Catch) = some c := hc
            cases hc; nomatch hl }

theorem Inv.start {first last snap : Nat} (w : Bool) (io : IOut) (h : 0 < first) (h2 : first ≤ snap + 1) (h3 : snap ≤ last) :
    Inv (State.start first last snap w io) := by
  unfold State.start
  refine Inv.sendEmpty ?_ ⟨⟨rfl, rfl, Or.inr rfl⟩, (by intro h'; cases h'), rfl⟩ w io
  exact
    { first0 := h, first1 := h2, snap1 := h3
      min0 := by unfold State.min; show 0 < last + 1 - 0; omega
      next1 := Nat.le_refl _
      chain := rfl
      req := fun r hr => nomatch hr
      outc := fun q hq => nomatch hq
      flyc := fun r hr => nomatch hr
      flyend := fun r hr => nomatch hr
      zero := fun r hr => nomatch hr
      fly := fun hf => absurd rfl hf
      blk := fun hb => nomatch hb
      nblk := fun _ => rfl
      cont := fun hc => absurd rfl hc
      inst := fun hi => absurd rfl hi
      instle := fun i hi => nomatch hi
      succ := fun hs => nomatch hs
      tn := fun i hi => nomatch hi
      cr := fun x hx => nomatch hx
      cc := fun c hc => nomatch hc
      cnt := fun p hp => nomatch hp
      nbad := rfl }

theorem Inv.step {T : Nat} {w : Bool} {s t : State} (h : Inv s) (hs : Step T w false s t) : Inv t := by
  cases hs with
  | returned q r e hq => exact h.returned T w hq r e
  | installed i ok e hi => exact h.installed w hi ok e
  | wake e => exact h.wake w e
  | unblock => exact h.unblock
  | resume io => exact h.resume w io
  | waitCaughtUp m => exact h.waitCaughtUp m
  | transfer =>
    unfold State.transfer
    split
    · exact h
    · dsimp only
      have h0 : Inv { s with asked := s.last :: s.asked } := { h with }
      split
      · rename_i hc
        have hc2 : s.last < s.min := hc.2
        exact h0.timeoutNow _ ((h.succ hc.1).le (by show s.last ≤ s.min - 1; omega))
      · exact { h0 with }
  | stopTransfer => exact { h with }
  | stop =>
    unfold State.stop
    split
    · exact { (h.notifyErr .perm (fun l => by intro h'; nomatch h')) with }
    · exact h
  | catchTimeout =>
    unfold State.catchTimeout
    split
    · exact h.notifyErr .timedout (fun l => by intro h'; nomatch h')
    · exact h
  | readonlyOff a b hro => cases hro
  | append k =>
    exact { h with
      snap1 := by show s.snap ≤ s.last + k; have := h.snap1; omega
      next1 := by show s.next ≤ s.last + k + 1; have := h.next1; omega
      flyend := fun r hr => by have := h.flyend r hr; show _ ≤ s.last + k + 1; omega
      instle := fun i hi => by have := h.instle i hi; show _ ≤ s.last + k; omega
      cnt := fun p hp => by
        obtain ⟨a, b, c⟩ := h.cnt p hp
        exact ⟨a, by show _ ≤ s.last + k; omega, c⟩ }
  | compact snap first =>
    unfold State.compact
    split
    · rename_i hc
      exact { h with
        first0 := by show 0 < first; have := h.first0; omega
        first1 := hc.2.2.2
        snap1 := hc.2.1 }
    · exact h

theorem Run.inv {T : Nat} {w : Bool} {s : State} (h : Run T w false s) : Inv s := by
  induction h with
  | start first last snap io h h2 h3 => exact Inv.start w io h h2 h3
  | step _ hs ih => exact ih.step hs

/-! ### In any mode -/

/-- The closures of wait_for_caught_up: each waits or has run once. -/
structure Once (s : State) : Prop where
  nodup : (s.ran.map (·.1)).Nodup
  lt : ∀ x ∈ s.ran, x.1 < s.nwait
  clt : ∀ c, s.catching = some c → c.id < s.nwait ∧ ∀ x ∈ s.ran, x.1 ≠ c.id
  all : ∀ i, i < s.nwait → (∃ x ∈ s.ran, x.1 = i) ∨ ∃ c, s.catching = some c ∧ c.id = i
  dead : s.alive = false → s.catching = none
  cnt : ∀ p ∈ s.counted, ∃ q ∈ s.acks, 0 < q.n ∧ p.2 = q.prev + q.n
  tni : s.tni = 0 ∨ s.tni ∈ s.asked
  tn : ∀ i ∈ s.tnow, i ∈ s.asked

theorem Once.frame {s t : State} (h : Once s) (f : Frame s t) : Once t :=
  { nodup := by rw [f.ran]; exact h.nodup
    lt := by rw [f.ran, f.nwait]; exact h.lt
    clt := by rw [f.catching, f.ran, f.nwait]; exact h.clt
    all := by rw [f.catching, f.ran, f.nwait]; exact h.all
    dead := by rw [f.alive, f.catching]; exact h.dead
    cnt := by rw [f.counted, f.acks]; exact h.cnt
    tni := by rw [f.tni, f.asked]; exact h.tni
    tn := by rw [f.tnow, f.asked]; exact h.tn }

theorem Once.finish {s : State} (h : Once s) {c : Catch} (hc : s.catching = some c) (x : Nat × Caught) (b : Bool) :
    Once { s with catching := none, ran := (c.id, x) :: s.ran, alive := b } :=
  { nodup := by
      show ((c.id, x) :: s.ran |>.map (·.1)).Nodup
      simp only [List.map_cons, List.nodup_cons]
      refine ⟨?_, h.nodup⟩
      intro hm
      obtain ⟨y, hy, e⟩ := List.mem_map.1 hm
      exact (h.clt c hc).2 y hy e
    lt := by
      intro y hy
      rcases List.mem_cons.1 hy with e | hy
      · subst e; exact (h.clt c hc).1
      · exact h.lt y hy
    clt := by intro c' hc'; cases hc'
    all := by
      intro i hi
      left
      rcases h.all i hi with ⟨y, hy, e⟩ | ⟨c', hc', e⟩
      · exact ⟨y, List.mem_cons_of_mem _ hy, e⟩
      · rw [hc] at hc'; cases hc'; exact ⟨(c.id, x), List.mem_cons_self, e⟩
    dead := fun _ => rfl
    cnt := h.cnt
    tni := h.tni
    tn := h.tn }

theorem Once.notifyOk {s : State} (h : Once s) (ha : s.alive = true) (b : Bool) : Once (s.notifyOk b) := by
  unfold State.notifyOk
  cases hc : s.catching with
  | none => exact h
  | some c =>
    dsimp only
    split
    · exact h
    · split
      · exact { h with
          clt := by
            intro c' hc'
            have hc' : some { c with okAt := some s.last } = some c' := hc'
            cases hc'; exact h.clt c hc
          all := by
            intro i hi
            rcases h.all i hi with hx | ⟨c', hc', e⟩
            · exact Or.inl hx
            · rw [hc] at hc'; cases hc'; exact Or.inr ⟨_, rfl, e⟩
          dead := fun hd => by
            have hd : s.alive = false := hd
            rw [ha] at hd; cases hd }
      · have := h.finish hc (c.margin, .ok s.last) s.alive
        exact this

theorem Once.notifyErr {s : State} (h : Once s) (r : Caught) (b : Bool) (hb : b = s.alive ∨ b = false) : Once { s.notifyErr r with alive := b } := by
  unfold State.notifyErr
  cases hc : s.catching with
  | none => exact { h with dead := fun _ => hc }
  | some c => exact h.finish hc (c.margin, (match c.okAt with | some l => .ok l | none => r)) b

theorem Once.fire {s : State} (h : Once s) : Once s.fire := by
  unfold State.fire
  split
  · rename_i hc
    have hm : s.tni ∈ s.asked := by
      rcases h.tni with h0 | h0
      · omega
      · exact h0
    exact { h with
      tni := Or.inl rfl
      tn := by
        intro i hi
        rcases List.mem_cons.1 hi with e | hi
        · subst e; exact hm
        · exact h.tn i hi }
  · exact h

theorem Once.poppedTo {s : State} (h : Once s) (q : Req) (hq : q ∈ s.acks) : Once (s.poppedTo q) := by
  unfold State.poppedTo
  dsimp only
  split
  · exact { h with
      cnt := by
        intro p hp
        rcases List.mem_cons.1 hp with e | hp
        · subst e; exact ⟨q, hq, by assumption, rfl⟩
        · exact h.cnt p hp }
  · exact { h with }

theorem poppedTo_alive (s : State) (q : Req) : (s.poppedTo q).alive = s.alive := by
  unfold State.poppedTo; dsimp only; split <;> rfl

theorem frame_backoff_once {s : State} (h : Once s) (l : Nat) : Once (s.backoff l) := by
  have h1 : Once s.reset := h.frame (frame_reset s)
  unfold State.backoff
  dsimp only
  split
  · exact { h1 with }
  · split
    · exact { h1 with }
    · exact h1

theorem Once.returned {s : State} (h : Once s) (T : Nat) (w : Bool) (q : Req) (r : Resp) (e : Env) : Once (s.returned T w q r e) := by
  unfold State.returned
  dsimp only
  have hsub : ∀ x ∈ s.acks, x ∈ r.acks T q s.acks := by
    intro x hx
    cases r with
    | failed => exact hx
    | resp b t l =>
      cases b with
      | false => exact hx
      | true => unfold Resp.acks; dsimp only; split
                · simp [hx]
                · exact hx
  generalize hacks : r.acks T q s.acks = A at hsub
  have h0 : ∀ b, Once { s with out := s.out.erase q, acks := A, bad := b } := fun b =>
    { h with cnt := fun p hp => by obtain ⟨y, hy, z⟩ := h.cnt p hp; exact ⟨y, hsub y hy, z⟩ }
  by_cases hal : (!s.alive) = true
  · rw [if_pos hal]; exact h0 s.bad
  · rw [if_neg hal]
    have hal : s.alive = true := by simpa using hal
    generalize hb : (s.bad || !(decide (0 < ({ s with out := s.out.erase q, acks := A } : State).min))) = b
    have h1 := h0 b
    by_cases hv : (!valid s.fly (q.prev + 1) q.call) = true
    · rw [if_pos hv]; exact h1
    · rw [if_neg hv]
      cases r with
      | failed => exact (h1.frame (frame_reset _)).frame (frame_block _)
      | resp b t l =>
        cases b with
        | false =>
          dsimp only
          split
          · exact (h1.frame (frame_reset _)).notifyErr _ false (Or.inr rfl)
          · exact (frame_backoff_once h1 l).frame (frame_sendEmpty _ _ _)
        | true =>
          dsimp only
          split
          · exact h1.frame (frame_reset _)
          · rename_i ht
            have ht : t = T := by omega
            have hmem : q ∈ A := by rw [← hacks]; simp [Resp.acks, ht]
            rw [succeeded_eq]
            refine Once.frame (Once.fire (Once.notifyOk (h1.poppedTo q hmem) ?_ _)) (frame_sendEntries _ _ _)
            rw [poppedTo_alive]; exact hal

theorem Once.installed {s : State} (h : Once s) (w : Bool) (i : Nat) (ok : Bool) (e : Env) : Once (s.installed w i ok e) := by
  unfold State.installed
  dsimp only
  split
  · exact { h with }
  · rename_i hal
    have hal : s.alive = true := by simpa using hal
    split
    · exact Once.frame (s := { s with installs := s.installs.erase i, snaps := if ok then i :: s.snaps else s.snaps, reader := false }) { h with } (frame_block _)
    · exact Once.frame (Once.fire (Once.notifyOk (s := { s with installs := s.installs.erase i, snaps := if ok then i :: s.snaps else s.snaps, reader := false, next := i + 1, hasSucc := true }) { h with } hal _)) (frame_sendEntries _ _ _)

theorem Once.step {T : Nat} {w ro : Bool} {s t : State} (h : Once s) (hs : Step T w ro s t) : Once t := by
  cases hs with
  | returned q r e hq => exact h.returned T w q r e
  | installed i ok e hi => exact h.installed w i ok e
  | wake e =>
    unfold State.wake
    split
    · exact h
    · dsimp only
      split
      · exact { h with }
      · exact Once.frame (s := { s with waits := s.waits - 1, waitId := false }) { h with } (frame_sendEntries _ _ _)
  | unblock =>
    unfold State.unblock
    split
    · exact h
    · exact { h with }
  | resume io =>
    unfold State.resume
    split
    · exact h
    · dsimp only
      split
      · exact { h with }
      · exact Once.frame (s := { s with conts := s.conts - 1 }) { h with } (frame_sendEmpty _ _ _)
  | waitCaughtUp m =>
    have hadd : ∀ x : Nat × Caught, Once { s with nwait := s.nwait + 1, ran := (s.nwait, x) :: s.ran } := fun x =>
      { h with
        nodup := by
          show ((s.nwait, x) :: s.ran |>.map (·.1)).Nodup
          simp only [List.map_cons, List.nodup_cons]
          refine ⟨?_, h.nodup⟩
          intro hm
          obtain ⟨y, hy, e⟩ := List.mem_map.1 hm
          have := h.lt y hy
          omega
        lt := by
          intro y hy
          rcases List.mem_cons.1 hy with e | hy
          · subst e; exact Nat.lt_succ_self _
          · exact Nat.lt_succ_of_lt (h.lt y hy)
        clt := by
          intro c hc
          have := h.clt c hc
          refine ⟨Nat.lt_succ_of_lt this.1, ?_⟩
          intro y hy
          rcases List.mem_cons.1 hy with e | hy
          · subst e; show s.nwait ≠ c.id; omega
          · exact this.2 y hy
        all := by
          intro i hi
          have hi : i < s.nwait + 1 := hi
          by_cases e : i = s.nwait
          · exact Or.inl ⟨(s.nwait, x), List.mem_cons_self, e.symm⟩
          · rcases h.all i (by omega) with ⟨y, hy, e⟩ | hx
            · exact Or.inl ⟨y, List.mem_cons_of_mem _ hy, e⟩
            · exact Or.inr hx }
    unfold State.waitCaughtUp
    dsimp only
    split
    · exact hadd (m, .inval)
    · rename_i hal
      split
      · exact hadd (m, .inval)
      · rename_i hcn
        split
        · exact hadd (m, .ok s.last)
        · have hal : s.alive = true := by simpa using hal
          have hcn : s.catching = none := by simpa using hcn
          exact { h with
            lt := fun y hy => Nat.lt_succ_of_lt (h.lt y hy)
            clt := by
              intro c hc
              have hc : some (⟨s.nwait, m, none⟩ : Catch) = some c := hc
              cases hc
              refine ⟨Nat.lt_succ_self _, fun y hy => ?_⟩
              have := h.lt y hy
              show y.1 ≠ s.nwait
              omega
            all := by
              intro i hi
              have hi : i < s.nwait + 1 := hi
              by_cases e : i = s.nwait
              · exact Or.inr ⟨_, rfl, e.symm⟩
              · rcases h.all i (by omega) with hx | ⟨c, hc, _⟩
                · exact Or.inl hx
                · rw [hcn] at hc; cases hc
            dead := fun hd => by
              have hd : s.alive = false := hd
              rw [hal] at hd; cases hd }
  | transfer =>
    unfold State.transfer
    split
    · exact h
    · dsimp only
      split
      · exact { h with
          tni := Or.inl rfl
          tn := by
            intro i hi
            rcases List.mem_cons.1 hi with e | hi
            · subst e; exact List.mem_cons_self
            · exact List.mem_cons_of_mem _ (h.tn i hi) }
      · exact { h with
          tni := Or.inr List.mem_cons_self
          tn := fun i hi => List.mem_cons_of_mem _ (h.tn i hi) }
  | stopTransfer => exact { h with tni := Or.inl rfl }
  | stop =>
    unfold State.stop
    split
    · exact h.notifyErr _ false (Or.inr rfl)
    · exact h
  | catchTimeout =>
    unfold State.catchTimeout
    split
    · rename_i ha
      have := h.notifyErr .timedout s.alive (Or.inl rfl)
      obtain ⟨c, x, e⟩ := notifyErr_eq s .timedout
      rw [e] at this ⊢; exact this
    · exact h
  | readonlyOff a b hro =>
    unfold State.readonlyOff
    split
    · exact h.frame (frame_waitMore _ _ _)
    · exact h
  | append k => exact { h with }
  | compact snap first =>
    unfold State.compact
    split
    · exact { h with }
    · exact h

theorem Run.once {T : Nat} {w ro : Bool} {s : State} (h : Run T w ro s) : Once s := by
  induction h with
  | start first last snap io h h2 h3 =>
    unfold State.start
    refine Once.frame ?_ (frame_sendEmpty _ _ _)
    exact
      { nodup := List.nodup_nil
        lt := fun x hx => nomatch hx
        clt := fun c hc => nomatch hc
        all := fun i hi => absurd hi (Nat.not_lt_zero _)
        dead := fun hd => nomatch hd
        cnt := fun p hp => nomatch hp
        tni := Or.inl rfl
        tn := fun i hi => nomatch hi }
  | step _ hs ih => exact ih.step hs

end Braft.Repl
