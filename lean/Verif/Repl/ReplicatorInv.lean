import Verif.Repl.Replicator
/-! Invariant of a replicator whose peer does not leave readonly mode. -/
set_option linter.unusedSectionVars false
set_option linter.unusedSimpArgs false
set_option linter.unusedVariables false

namespace Braft.Repl

/-- The requests in flight cover the indexes from `a` to `b - 1`, one after the other. -/
def Chain : Nat → List Fly → Nat → Prop
  | a, [], b => a = b
  | a, r :: l, b => r.first = a ∧ Chain (a + r.size) l b

/-- The peer has acknowledged index `k`. -/
def Acked (acks : List Req) (snaps : List Nat) (k : Nat) : Prop :=
  k = 0 ∨ (∃ q ∈ acks, k ≤ q.prev + q.n) ∨ (∃ i ∈ snaps, k ≤ i)

theorem Acked.le {acks snaps k k'} (h : Acked acks snaps k) (hk : k' ≤ k) : Acked acks snaps k' := by
  rcases h with h | ⟨q, hq, h⟩ | ⟨i, hi, h⟩
  · left; omega
  · right; left; exact ⟨q, hq, by omega⟩
  · right; right; exact ⟨i, hi, by omega⟩

theorem Acked.mono {acks snaps acks' snaps' k} (h : Acked acks snaps k) (ha : ∀ q ∈ acks, q ∈ acks') (hs : ∀ i ∈ snaps, i ∈ snaps') :
    Acked acks' snaps' k := by
  rcases h with h | ⟨q, hq, h⟩ | ⟨i, hi, h⟩
  · left; exact h
  · right; left; exact ⟨q, ha q hq, h⟩
  · right; right; exact ⟨i, hs i hi, h⟩

theorem Chain.sum {a l b} (h : Chain a l b) : b = a + (l.map Fly.size).sum := by
  induction l generalizing a with
  | nil => simp [Chain] at h; simp [h]
  | cons r l ih => simp [Chain] at h; have := ih h.2; simp; omega

theorem Chain.snoc {a l b} (h : Chain a l b) (k c : Nat) : Chain a (l ++ [⟨b, k, c⟩]) (b + k) := by
  induction l generalizing a with
  | nil => simp [Chain] at h ⊢; exact ⟨h.symm, h⟩
  | cons r l ih => simp [Chain] at h ⊢; exact ⟨h.1, ih h.2⟩

/-- Nothing is in flight and no waiter will be heeded. -/
def State.Quiet (s : State) : Prop := s.fly = [] ∧ s.installs = [] ∧ (s.cancelled = true ∨ s.waits = 0)

/-- What is known whatever was sent. -/
structure Inv (s : State) : Prop where
  first0 : 0 < s.first
  first1 : s.first ≤ s.snap + 1
  snap1 : s.snap ≤ s.last
  min0 : 0 < s.min
  next1 : s.next ≤ s.last + 1
  chain : Chain s.min s.fly s.next
  req : ∀ r ∈ s.fly, ∀ q ∈ s.out, q.call = r.call → q.prev + 1 = r.first ∧ q.n = r.size
  outc : ∀ q ∈ s.out, q.call < s.calls
  flyc : ∀ r ∈ s.fly, r.call < s.calls
  flyend : ∀ r ∈ s.fly, r.first + r.size ≤ s.last + 1
  zero : ∀ r ∈ s.fly, r.size = 0 → s.fly = [r] ∧ (s.cancelled = true ∨ s.waits = 0)
  fly : s.fly ≠ [] → s.st = .appending ∧ s.conts = 0 ∧ s.installs = []
  blk : s.st = .blocking → s.timers = 1 ∧ s.conts = 0 ∧ s.Quiet
  nblk : s.st ≠ .blocking → s.timers = 0
  cont : s.conts ≠ 0 → s.conts = 1 ∧ s.Quiet
  inst : s.installs ≠ [] → s.installs.length = 1 ∧ s.reader = true ∧ s.st = .installing ∧ s.conts = 0 ∧ (s.cancelled = true ∨ s.waits = 0)
  instle : ∀ i ∈ s.installs, i ≤ s.last
  succ : s.hasSucc = true → Acked s.acks s.snaps (s.min - 1)
  tn : ∀ i ∈ s.tnow, Acked s.acks s.snaps i
  cr : ∀ x ∈ s.ran, ∀ l, x.2.2 = .ok l → Acked s.acks s.snaps (l - x.2.1)
  cc : ∀ c, s.catching = some c → ∀ l, c.okAt = some l → Acked s.acks s.snaps (l - c.margin)
  cnt : ∀ p ∈ s.counted, p.1 ≤ p.2 ∧ p.2 ≤ s.last ∧ ∃ q ∈ s.acks, 0 < q.n ∧ p.2 = q.prev + q.n
  nbad : s.bad = false

theorem State.min_eq {s : State} (h : Inv s) : s.min + s.flying = s.next := by
  have := h.min0; unfold State.min at *; omega

theorem Inv.flying_eq {s : State} (h : Inv s) : s.flying = (s.fly.map Fly.size).sum := by
  have := h.chain.sum; have := State.min_eq h; omega

theorem Inv.flying_nil {s : State} (h : Inv s) (hf : s.fly = []) : s.flying = 0 ∧ s.min = s.next := by
  have h1 := h.flying_eq; have h2 := State.min_eq h; rw [hf] at h1; simp at h1; omega

/-- `t` is `s` but for fields the invariant does not mention. -/
theorem Inv.reset {s : State} (h : Inv s) : Inv s.reset := by
  have hm := State.min_eq h
  have hmin : s.reset.min = s.min := by unfold State.reset State.min; simp
  constructor
  · exact h.first0
  · exact h.first1
  · exact h.snap1
  · rw [hmin]; exact h.min0
  · show s.next - s.flying ≤ s.last + 1; have := h.next1; omega
  · unfold State.reset State.min; simp [Chain]
  · intro r hr; simp [State.reset] at hr
  · exact h.outc
  · intro r hr; simp [State.reset] at hr
  · intro r hr; simp [State.reset] at hr
  · intro r hr; simp [State.reset] at hr
  · intro hf; simp [State.reset] at hf
  · intro hs; obtain ⟨a, b, c, d, e⟩ := h.blk hs; exact ⟨a, b, rfl, d, Or.inl rfl⟩
  · exact h.nblk
  · intro hs; obtain ⟨a, c, d, e⟩ := h.cont hs; exact ⟨a, rfl, d, Or.inl rfl⟩
  · intro hs; obtain ⟨a, b, c, d, e⟩ := h.inst hs; exact ⟨a, b, c, d, Or.inl rfl⟩
  · exact h.instle
  · intro hs; rw [hmin]; exact h.succ hs
  · exact h.tn
  · exact h.cr
  · exact h.cc
  · exact h.cnt
  · exact h.nbad

theorem reset_quiet {s : State} (hi : s.installs = []) : s.reset.Quiet := ⟨rfl, hi, Or.inl rfl⟩

theorem Inv.block {s : State} (h : Inv s) (hq : s.Quiet) (hc : s.conts = 0) : Inv s.block := by
  unfold State.block
  by_cases hb : s.st = .blocking
  · rw [if_pos hb]; exact h
  · rw [if_neg hb]
    have ht := h.nblk hb
    exact { h with
      fly := fun hf => absurd hq.1 hf
      blk := fun _ => ⟨by show s.timers + 1 = 1; omega, hc, hq⟩
      nblk := fun hn => absurd rfl hn
      inst := fun hi => absurd hq.2.1 hi }

/-- The replicator is about to send a first request. -/
structure Ready (s : State) : Prop where
  quiet : s.Quiet
  nblk : s.st ≠ .blocking
  conts : s.conts = 0

theorem Inv.stInstalling {s : State} (h : Inv s) (hr : Ready s) (b : Bool) (hb : s.reader = true → b = true) :
    Inv { s with st := .installing, reader := b } :=
  { h with
    fly := fun hf => absurd hr.quiet.1 hf
    blk := fun hb => nomatch hb
    nblk := fun _ => h.nblk hr.nblk
    inst := fun hi => absurd hr.quiet.2.1 hi }

theorem Inv.install {s : State} (h : Inv s) (hr : Ready s) (w : Bool) (io : IOut) : Inv (s.install w io) := by
  unfold State.install
  by_cases hw : w = true
  · rw [if_pos hw]; exact h.block hr.quiet hr.conts
  · rw [if_neg hw]
    by_cases hrd : s.reader = true
    · rw [if_pos hrd]; exact h
    · rw [if_neg hrd]
      have h1 : Inv { s with st := .installing } := by
        have := h.stInstalling hr s.reader id
        exact this
      cases io with
      | block => exact h1.block hr.quiet hr.conts
      | fail => exact h1
      | metaFail => exact h.stInstalling hr true (fun _ => rfl)
      | sent =>
        have h2 := h.stInstalling hr true (fun _ => rfl)
        have hi := hr.quiet.2.1
        exact { h2 with
          fly := fun hf => absurd hr.quiet.1 hf
          blk := fun hb => nomatch hb
          cont := fun hc => absurd hr.conts hc
          inst := fun _ => ⟨by simp [hi], rfl, rfl, hr.conts, hr.quiet.2.2⟩
          instle := by
            intro i hi'
            have : i ∈ s.snap :: s.installs := hi'
            rw [hi] at this; simp at this; subst this; exact h.snap1 }

theorem Inv.unfilled {s : State} (h : Inv s) (hf : s.fill (s.next - 1) = false) : Inv (s.unfilled (s.next - 1)) := by
  have : s.next - 1 < s.first := by
    unfold State.fill State.known at hf
    simp at hf
    have := h.next1; have := h.min0; have := State.min_eq h; have := h.first1
    omega
  exact { h with nbad := by show (s.bad || _) = false; rw [h.nbad]; simp [this] }

theorem Inv.sendEmpty {s : State} (h : Inv s) (hr : Ready s) (w : Bool) (io : IOut) : Inv (s.sendEmpty w io) := by
  unfold State.sendEmpty
  by_cases hf : s.fill (s.next - 1) = true
  · rw [if_pos hf]
    obtain ⟨hfly, hinst, hcw⟩ := hr.quiet
    obtain ⟨hfl, hmn⟩ := h.flying_nil hfly
    have hm0 := h.min0
    exact { h with
      chain := by
        have := h.chain.snoc 0 s.calls
        exact this
      req := by
        intro r hr' q hq hc
        have hr' : r ∈ s.fly ++ [⟨s.next, 0, s.calls⟩] := hr'
        rw [hfly] at hr'; simp at hr'; subst hr'
        have hq : q ∈ (⟨s.calls, s.next - 1, 0⟩ : Req) :: s.out := hq
        rcases List.mem_cons.1 hq with e | hq
        · subst e; exact ⟨by show s.next - 1 + 1 = s.next; omega, rfl⟩
        · have := h.outc q hq; simp at hc; omega
      outc := by
        intro q hq
        rcases List.mem_cons.1 hq with e | hq
        · subst e; exact Nat.lt_succ_self _
        · exact Nat.lt_succ_of_lt (h.outc q hq)
      flyc := by
        intro r hr'
        have hr' : r ∈ s.fly ++ [⟨s.next, 0, s.calls⟩] := hr'
        rw [hfly] at hr'; simp at hr'; subst hr'; exact Nat.lt_succ_self _
      flyend := by
        intro r hr'
        have hr' : r ∈ s.fly ++ [⟨s.next, 0, s.calls⟩] := hr'
        rw [hfly] at hr'; simp at hr'; subst hr'; exact h.next1
      zero := by
        intro r hr' _
        have hr' : r ∈ s.fly ++ [⟨s.next, 0, s.calls⟩] := hr'
        rw [hfly] at hr'; simp at hr'; subst hr'
        exact ⟨by show s.fly ++ _ = _; rw [hfly]; rfl, hcw⟩
      fly := fun _ => ⟨rfl, hr.conts, hinst⟩
      blk := fun hb => nomatch hb
      nblk := fun _ => h.nblk hr.nblk
      cont := fun hc => absurd hr.conts hc
      inst := fun hi => absurd hinst hi
      nbad := by show (s.bad || !s.fly.isEmpty || !(s.flying == 0)) = false; rw [h.nbad, hfly, hfl]; rfl }
  · rw [if_neg hf]
    have hf : s.fill (s.next - 1) = false := by simpa using hf
    exact (h.unfilled hf).install ⟨hr.quiet, hr.nblk, hr.conts⟩ w io

/-- No probe is in flight and no snapshot is being sent. -/
structure Open (s : State) : Prop where
  pos : ∀ r ∈ s.fly, 0 < r.size
  inst : s.installs = []
  conts : s.conts = 0

theorem Inv.waitMore {s : State} (h : Inv s) (ho : Open s) (hb : s.st ≠ .blocking) (a b : Nat) : Inv (s.waitMore a b) := by
  have h1 : ∀ t : State, t = (if !s.waitId ∧ s.flying < a ∧ s.fly.length < b then { s with waitId := true, waits := s.waits + 1, cancelled := false } else s) →
      Inv t ∧ t.st = s.st ∧ t.fly = s.fly ∧ t.flying = s.flying ∧ t.conts = 0 ∧ t.installs = [] := by
    intro t ht
    by_cases hc : (!s.waitId) = true ∧ s.flying < a ∧ s.fly.length < b
    · rw [if_pos hc] at ht; subst ht
      exact ⟨{ h with
        zero := fun r hr hz => by have := ho.pos r hr; omega
        blk := fun h' => absurd h' hb
        cont := fun h' => absurd ho.conts h'
        inst := fun h' => absurd ho.inst h' }, rfl, rfl, rfl, ho.conts, ho.inst⟩
    · rw [if_neg hc] at ht; subst ht; exact ⟨h, rfl, rfl, rfl, ho.conts, ho.inst⟩
  unfold State.waitMore
  dsimp only
  generalize hg : (if (!s.waitId) = true ∧ s.flying < a ∧ s.fly.length < b then ({ s with waitId := true, waits := s.waits + 1, cancelled := false } : State) else s) = t
  obtain ⟨ht, hst, hfl, hfg, hct, hin⟩ := h1 t hg.symm
  by_cases hz : t.flying = 0
  · rw [if_pos hz]
    have hnil : t.fly = [] := by
      cases hl : t.fly with
      | nil => rfl
      | cons r l =>
        have := ht.flying_eq
        rw [hl, hz] at this
        have hp := ho.pos r (by rw [← hfl, hl]; simp)
        simp at this; omega
    have hnb : t.st ≠ .blocking := by rw [hst]; exact hb
    exact { ht with
      fly := fun hf => absurd hnil hf
      blk := fun h' => nomatch h'
      nblk := fun _ => ht.nblk hnb
      inst := fun h' => absurd hin h' }
  · rw [if_neg hz]; exact ht

theorem Inv.sendEntries {s : State} (h : Inv s) (ho : Open s) (w : Bool) (e : Env) : Inv (s.sendEntries w e) := by
  unfold State.sendEntries
  by_cases hg : e.maxSize ≤ s.flying ∨ e.maxPar ≤ s.fly.length ∨ s.st = .blocking
  · rw [if_pos hg]; exact h
  · rw [if_neg hg]
    have hb : s.st ≠ .blocking := fun h' => hg (Or.inr (Or.inr h'))
    by_cases hf : (!s.fill (s.next - 1)) = true
    · rw [if_pos hf]
      have hf : s.fill (s.next - 1) = false := by simpa using hf
      exact (h.unfilled hf).reset.install ⟨⟨rfl, ho.inst, Or.inl rfl⟩, hb, ho.conts⟩ w e.io
    · rw [if_neg hf]
      dsimp only
      generalize hk : Nat.min e.n (Nat.min s.avail (e.maxSize - s.flying)) = k
      by_cases hz : k = 0
      · rw [if_pos hz]
        by_cases hn : s.next < s.first
        · rw [if_pos hn]; exact h.reset.install ⟨⟨rfl, ho.inst, Or.inl rfl⟩, hb, ho.conts⟩ w e.io
        · rw [if_neg hn]
          by_cases hro : e.ro = true
          · rw [if_pos hro]
            by_cases hfz : s.flying = 0
            · rw [if_pos hfz]
              have hnil : s.fly = [] := by
                cases hl : s.fly with
                | nil => rfl
                | cons r l =>
                  have := h.flying_eq
                  rw [hl, hfz] at this
                  have hp := ho.pos r (by rw [hl]; simp)
                  simp at this; omega
              exact { h with
                fly := fun hf => absurd hnil hf
                blk := fun h' => nomatch h'
                nblk := fun _ => h.nblk hb
                inst := fun h' => absurd ho.inst h' }
            · rw [if_neg hfz]; exact h
          · rw [if_neg hro]; exact h.waitMore ho hb _ _
      · rw [if_neg hz]
        have hkl : k ≤ s.last + 1 - s.next := by
          have h1 : k ≤ s.avail := by rw [← hk]; exact Nat.le_trans (Nat.min_le_right _ _) (Nat.min_le_left _ _)
          unfold State.avail at h1
          split at h1
          · exact h1
          · omega
        have hm := State.min_eq h
        have hm0 := h.min0
        have hmin : ∀ t : State, t.next = s.next + k → t.flying = s.flying + k → t.min = s.min := by
          intro t h1 h2; unfold State.min; rw [h1, h2]; omega
        have h1 : Inv (({ s with
                fly := s.fly ++ [⟨s.next, k, s.calls⟩], out := ⟨s.calls, s.next - 1, k⟩ :: s.out, calls := s.calls + 1,
                next := s.next + k, flying := s.flying + k, st := .appending } : State)) := by
          refine { h with
            min0 := ?_
            next1 := ?_
            chain := ?_
            req := ?_
            outc := ?_
            flyc := ?_
            flyend := ?_
            zero := ?_
            fly := ?_
            blk := ?_
            nblk := ?_
            cont := ?_
            inst := ?_
            succ := ?_ }
          · rw [hmin _ rfl rfl]; exact hm0
          · show s.next + k ≤ s.last + 1; omega
          · rw [hmin _ rfl rfl]; exact h.chain.snoc k s.calls
          · intro r hr q hq hc
            rcases List.mem_append.1 hr with hr | hr <;> rcases List.mem_cons.1 hq with e | hq
            · subst e; have := h.flyc r hr; simp at hc; omega
            · exact h.req r hr q hq hc
            · subst e; simp at hr; subst hr; exact ⟨by show s.next - 1 + 1 = s.next; omega, rfl⟩
            · simp at hr; subst hr; have := h.outc q hq; simp at hc; omega
          · intro q hq
            rcases List.mem_cons.1 hq with e | hq
            · subst e; exact Nat.lt_succ_self _
            · exact Nat.lt_succ_of_lt (h.outc q hq)
          · intro r hr
            rcases List.mem_append.1 hr with hr | hr
            · exact Nat.lt_succ_of_lt (h.flyc r hr)
            · simp at hr; subst hr; exact Nat.lt_succ_self _
          · intro r hr
            rcases List.mem_append.1 hr with hr | hr
            · exact h.flyend r hr
            · simp at hr; subst hr; show s.next + k ≤ s.last + 1; omega
          · intro r hr hz'
            rcases List.mem_append.1 hr with hr | hr
            · have := ho.pos r hr; omega
            · simp at hr; subst hr; exact absurd hz' hz
          · exact fun _ => ⟨rfl, ho.conts, ho.inst⟩
          · exact fun h' => nomatch h'
          · exact fun _ => h.nblk hb
          · exact fun h' => absurd ho.conts h'
          · exact fun h' => absurd ho.inst h'
          · intro hs; rw [hmin _ rfl rfl]; exact h.succ hs
        refine h1.waitMore ⟨?_, ho.inst, ho.conts⟩ (by intro h'; nomatch h') _ _
        intro r hr
        rcases List.mem_append.1 hr with hr | hr
        · exact ho.pos r hr
        · simp at hr; subst hr; exact Nat.pos_of_ne_zero hz

theorem Inv.notifyOk {s : State} (h : Inv s) (ha : Acked s.acks s.snaps (s.min - 1)) (b : Bool) : Inv (s.notifyOk b) := by
  unfold State.notifyOk
  cases hc : s.catching with
  | none => exact h
  | some c =>
    dsimp only
    by_cases hx : (!s.isCatchup c.margin) = true ∨ c.okAt.isSome = true
    · rw [if_pos hx]; exact h
    · rw [if_neg hx]
      have hcu : s.isCatchup c.margin = true := by
        have := fun h' => hx (Or.inl h'); simpa using this
      have hle : s.last - c.margin ≤ s.min - 1 := by
        unfold State.isCatchup at hcu; simp at hcu; omega
      have hacc := ha.le hle
      by_cases hb : b = true
      · rw [if_pos hb]
        exact { h with
          cc := by
            intro c' hc' l hl
            have hc' : some { c with okAt := some s.last } = some c' := hc'
            cases hc'; cases hl; exact hacc }
      · rw [if_neg hb]
        exact { h with
          cc := by intro c' hc'; nomatch hc'
          cr := by
            intro x hx l hl
            rcases List.mem_cons.1 hx with e | hx
            · subst e; cases hl; exact hacc
            · exact h.cr x hx l hl }

theorem Inv.notifyErr {s : State} (h : Inv s) (r : Caught) (hr : ∀ l, r ≠ .ok l) : Inv (s.notifyErr r) := by
  unfold State.notifyErr
  cases hc : s.catching with
  | none => exact h
  | some c =>
    exact { h with
      cc := by intro c' hc'; nomatch hc'
      cr := by
        intro x hx l hl
        rcases List.mem_cons.1 hx with e | hx
        · subst e
          cases ho : c.okAt with
          | none => rw [ho] at hl; exact absurd hl (hr l)
          | some l' => rw [ho] at hl; cases hl; exact h.cc c hc l ho
        · exact h.cr x hx l hl }

theorem Inv.timeoutNow {s : State} (h : Inv s) (i : Nat) (ha : Acked s.acks s.snaps i) : Inv (s.timeoutNow i) :=
  { h with
    tn := by
      intro j hj
      rcases List.mem_cons.1 hj with e | hj
      · subst e; exact ha
      · exact h.tn j hj }

theorem valid_mem {fly : List Fly} {f c : Nat} (h : valid fly f c = true) : ∃ r ∈ fly, r.call = c ∧ r.first ≤ f := by
  induction fly with
  | nil => simp [valid] at h
  | cons r l ih =>
    unfold valid at h
    by_cases h1 : f < r.first
    · rw [if_pos h1] at h; cases h
    · rw [if_neg h1] at h
      by_cases h2 : r.call = c
      · exact ⟨r, by simp, h2, by omega⟩
      · rw [if_neg h2] at h
        obtain ⟨r', hr', h'⟩ := ih h
        exact ⟨r', by simp [hr'], h'⟩

/-- In a chain of requests that are not empty, removing those that do not start after `r` leaves those after `r`. -/
theorem popped_chain {fly : List Fly} {a b : Nat} (h : Chain a fly b) (hp : ∀ x ∈ fly, 0 < x.size) {r : Fly} (hr : r ∈ fly) :
    Chain (r.first + r.size) (popped fly r.first) b ∧ a + poppedSize fly r.first = r.first + r.size ∧ a ≤ r.first := by
  have hlow : ∀ (l : List Fly) (a : Nat), Chain a l b → ∀ x ∈ l, a ≤ x.first := by
    intro l; induction l with
    | nil => intro a _ x hx; simp at hx
    | cons y l ih =>
      intro a hc x hx
      simp [Chain] at hc
      rcases List.mem_cons.1 hx with e | hx
      · subst e; omega
      · have := ih _ hc.2 x hx; omega
  induction fly generalizing a with
  | nil => simp at hr
  | cons y l ih =>
    simp only [Chain] at h
    rcases List.mem_cons.1 hr with e | hr'
    · subst e
      have hsz := hp r (by simp)
      have htail : ∀ x ∈ l, ¬ x.first ≤ r.first := by
        intro x hx; have := hlow l _ h.2 x hx; omega
      have e1 : popped l r.first = l := by
        cases l with
        | nil => rfl
        | cons z l' => unfold popped; rw [List.dropWhile_cons_of_neg]; simp; have := htail z (by simp); omega
      have e2 : poppedSize l r.first = 0 := by
        cases l with
        | nil => rfl
        | cons z l' => unfold poppedSize; rw [List.takeWhile_cons_of_neg]; · rfl
                       · simp; have := htail z (by simp); omega
      have e3 : popped (r :: l) r.first = popped l r.first := by unfold popped; rw [List.dropWhile_cons_of_pos]; simp
      have e4 : poppedSize (r :: l) r.first = r.size + poppedSize l r.first := by
        unfold poppedSize; rw [List.takeWhile_cons_of_pos]; · simp
        · simp
      rw [e3, e4, e1, e2, h.1]
      refine ⟨h.2, by omega, by omega⟩
    · obtain ⟨i1, i2, i3⟩ := ih h.2 (fun x hx => hp x (by simp [hx])) hr'
      have hge : y.first ≤ r.first := by omega
      have e3 : popped (y :: l) r.first = popped l r.first := by unfold popped; rw [List.dropWhile_cons_of_pos]; simp [hge]
      have e4 : poppedSize (y :: l) r.first = y.size + poppedSize l r.first := by
        unfold poppedSize; rw [List.takeWhile_cons_of_pos]; · simp
        · simp [hge]
      rw [e3, e4]
      exact ⟨i1, by omega, by omega⟩

/-- The queue after success: the requests up to this one are gone and the smallest index in flight is the next one. -/
theorem Inv.pops {s : State} (h : Inv s) {r : Fly} (hr : r ∈ s.fly) :
    Chain (r.first + r.size) (popped s.fly r.first) s.next ∧ s.min + poppedSize s.fly r.first = r.first + r.size ∧ s.min ≤ r.first ∧
    (∀ x ∈ popped s.fly r.first, 0 < x.size) ∧ (∀ x ∈ popped s.fly r.first, x ∈ s.fly) := by
  have hsub : ∀ x ∈ popped s.fly r.first, x ∈ s.fly := fun x hx => (List.dropWhile_sublist _).subset hx
  by_cases hz : r.size = 0
  · have hf := (h.zero r hr hz).1
    have hc := h.chain
    rw [hf] at hc ⊢
    simp [Chain] at hc
    have e1 : popped [r] r.first = [] := by unfold popped; simp
    have e2 : poppedSize [r] r.first = 0 := by unfold poppedSize; simp [hz]
    rw [e1, e2]
    refine ⟨?_, by omega, by omega, by simp, by simp⟩
    show r.first + r.size = s.next
    omega
  · have hp : ∀ x ∈ s.fly, 0 < x.size := by
      intro x hx
      rcases Nat.eq_zero_or_pos x.size with h0 | h0
      · have := (h.zero x hx h0).1
        rw [this] at hr; simp at hr; subst hr; exact absurd h0 hz
      · exact h0
    obtain ⟨a, b, c⟩ := popped_chain h.chain hp hr
    exact ⟨a, b, c, fun x hx => hp x (hsub x hx), hsub⟩

end Braft.Repl
