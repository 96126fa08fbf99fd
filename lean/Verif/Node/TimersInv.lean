import Verif.Node.Timers
/- Invariants of Timers.lean. -/
set_option linter.unusedVariables false
set_option linter.unusedSimpArgs false

namespace Braft.Timers
open Life (Role)

attribute [local grind] Role.active Role.leads

/-! ### The timer of the role is started: every run -/

/-- While the timers are not destroyed, the timer of the role is started. -/
structure Has (s : State) : Prop where
  fol : s.dead = false → s.can = true → s.role = .follower → (s.conf = true ∨ s.lid ≠ none) → s.elec = true
  cand : s.dead = false → s.can = true → s.role = .candidate → s.vote = true
  lead : s.dead = false → s.role.leads = true → s.down = true

theorem has_stepDown {s : State} (h : Has s) (t : Nat) : Has (s.stepDown t) := by
  obtain ⟨h1, h2, h3⟩ := h
  unfold State.stepDown State.stopOld State.startElec
  constructor <;> dsimp only <;> grind

theorem has_electSelf {s : State} (h : Has s) (a : Arg) : Has (s.electSelf a) := by
  obtain ⟨h1, h2, h3⟩ := h
  unfold State.electSelf State.startVote
  constructor <;> dsimp only <;> grind

theorem has_becomeLeader {s : State} (h : Has s) (f : Bool) : Has (s.becomeLeader f) := by
  obtain ⟨h1, h2, h3⟩ := h
  unfold State.becomeLeader State.startDown
  constructor <;> dsimp only <;> grind

/-- Fields that `Has` does not mention may change. -/
theorem Has.congr {s t : State} (h : Has s) (h1 : t.dead = s.dead) (h2 : t.can = s.can) (h3 : t.role = s.role)
    (h4 : t.conf = s.conf) (h5 : t.lid = s.lid ∨ (t.lid = none)) (h6 : t.elec = s.elec) (h7 : t.vote = s.vote)
    (h8 : t.down = s.down) : Has t := by
  obtain ⟨g1, g2, g3⟩ := h
  constructor
  · rw [h1, h2, h3, h4, h6]
    intro a b c d
    refine g1 a b c ?_
    rcases d with d | d
    · exact .inl d
    · rcases h5 with e | e
      · exact .inr (e ▸ d)
      · exact absurd e d
  · rw [h1, h2, h3, h7]; exact g2
  · rw [h1, h3, h8]; exact g3

theorem has_grantPre {s : State} (h : Has s) (a : Arg) : Has (s.grantPre a) := by
  unfold State.grantPre
  split
  · split
    · exact has_electSelf h a
    · exact h
  · exact h.congr rfl rfl rfl rfl (.inl rfl) rfl rfl rfl

theorem has_grantVote {s : State} (h : Has s) (f : Bool) (a : Arg) : Has (s.grantVote f a) := by
  unfold State.grantVote
  split
  · split
    · exact has_becomeLeader h f
    · exact h
  · exact h.congr rfl rfl rfl rfl (.inl rfl) rfl rfl rfl

theorem has_preVote {s : State} (h : Has s) (a : Arg) (g : Bool) : Has (s.preVote a g) := by
  unfold State.preVote
  split
  · exact h
  · split
    · exact h.congr rfl rfl rfl rfl (.inl rfl) rfl rfl rfl
    · exact h

theorem has_checkStepDown {s : State} (h : Has s) (hact : s.role.active = true) (t l : Nat) :
    Has (s.checkStepDown t l) ∧ ((s.checkStepDown t l).dead = false → (s.checkStepDown t l).can = true →
      (s.checkStepDown t l).role = .follower → (s.checkStepDown t l).elec = true) := by
  have hd := has_stepDown h t
  have he : (s.stepDown t).dead = false → (s.stepDown t).can = true → (s.stepDown t).elec = true := by
    unfold State.stepDown State.stopOld State.startElec
    rw [if_pos hact]
    dsimp only
    grind
  obtain ⟨h1, h2, h3⟩ := h
  unfold State.checkStepDown
  generalize s.stepDown t = d at *
  obtain ⟨g1, g2, g3⟩ := hd
  dsimp only
  refine ⟨?_, ?_⟩
  · constructor <;> grind
  · grind

theorem has_heard {s : State} (h : Has s) (t l : Nat) (c : Bool) : Has (s.heard t l c) := by
  unfold State.heard
  by_cases h0 : s.role.active = false
  · rw [if_pos h0]; exact h
  rw [if_neg h0]
  by_cases h1 : t < s.term
  · rw [if_pos h1]; exact h
  rw [if_neg h1]
  have ⟨hk, he⟩ := has_checkStepDown h (by grind) t l
  dsimp only
  generalize s.checkStepDown t l = d at *
  split
  · obtain ⟨g1, g2, g3⟩ := hk
    constructor <;> dsimp only <;> grind
  · exact has_stepDown hk _

theorem has_resumePre {s : State} (h : Has s) (i : Nat) (a : Arg) : Has (s.resumePre i a) := by
  unfold State.resumePre
  split
  · exact h
  · dsimp only
    split
    · exact h.congr rfl rfl rfl rfl (.inl rfl) rfl rfl rfl
    · refine has_grantPre ?_ a
      exact h.congr rfl rfl rfl rfl (.inl rfl) rfl rfl rfl

theorem has_resumeElect {s : State} (h : Has s) (f : Bool) (i : Nat) (a : Arg) : Has (s.resumeElect f i a) := by
  unfold State.resumeElect
  split
  · exact h
  · dsimp only
    split
    · exact h.congr rfl rfl rfl rfl (.inl rfl) rfl rfl rfl
    · split
      · refine has_grantVote ?_ f a
        exact h.congr rfl rfl rfl rfl (.inl rfl) rfl rfl rfl
      · exact h.congr rfl rfl rfl rfl (.inl rfl) rfl rfl rfl

theorem has_electionTimeout {s : State} (h : Has s) (a : Arg) : Has (s.electionTimeout a) := by
  unfold State.electionTimeout
  split
  · exact h
  · split
    · exact h
    · refine has_preVote ?_ a _
      exact h.congr rfl rfl rfl rfl (.inr rfl) rfl rfl rfl

theorem has_preAnswer {s : State} (h : Has s) (i r : Nat) (c : Bool) (a : Arg) : Has (s.preAnswer i r c a) := by
  have h1 := has_stepDown h r
  have h2 : Has ({ s with pctx := { s.pctx with ans := true } } : State) := h.congr rfl rfl rfl rfl (.inl rfl) rfl rfl rfl
  have h3 := has_electSelf h2 a
  unfold State.preAnswer
  dsimp only
  repeat' split
  all_goals first | exact h | exact h1 | exact h2 | exact h3

theorem has_voteAnswer {s : State} (h : Has s) (f : Bool) (i r : Nat) (c : Bool) (a : Arg) :
    Has (s.voteAnswer f i r c a) := by
  have h1 := has_stepDown h r
  have h2 : Has ({ s with vctx := { s.vctx with ans := true } } : State) := h.congr rfl rfl rfl rfl (.inl rfl) rfl rfl rfl
  have h3 := has_becomeLeader h2 f
  unfold State.voteAnswer
  dsimp only
  repeat' split
  all_goals first | exact h | exact h1 | exact h2 | exact h3

theorem has_grantFire {s : State} (h : Has s) (f : Bool) (i : Nat) (a : Arg) : Has (s.grantFire f i a) := by
  have h1 : Has ({ s with gts := s.gts.eraseIdx i } : State) := h.congr rfl rfl rfl rfl (.inl rfl) rfl rfl rfl
  have h2 := has_grantVote h1 f a
  have h3 := has_grantPre h1 a
  unfold State.grantFire
  dsimp only
  repeat' split
  all_goals first | exact h | exact h1 | exact h2 | exact h3

theorem has_voteTimeout {s : State} (h : Has s) (b : Bool) (a : Arg) : Has (s.voteTimeout b a) := by
  unfold State.voteTimeout
  split
  · exact h
  · split
    · exact has_preVote (has_stepDown h _) a _
    · exact has_electSelf h a

theorem has_timeoutNow {s : State} (h : Has s) (t : Nat) (a : Arg) : Has (s.timeoutNow t a) := by
  unfold State.timeoutNow
  repeat' split
  · exact has_stepDown h t
  · exact h
  · exact h
  · exact has_electSelf h a

theorem has_resetPeers {s : State} (h : Has s) : Has s.resetPeers := by
  obtain ⟨h1, h2, h3⟩ := h
  unfold State.resetPeers
  split
  · exact ⟨h1, h2, h3⟩
  · rename_i hn
    unfold State.stepDown State.stopOld State.startElec
    constructor <;> dsimp only <;> grind

theorem has_onError {s : State} (h : Has s) : Has s.onError := by
  have h1 : Has (if s.role.active then s.stepDown s.term else s) := by
    split
    · exact has_stepDown h _
    · exact h
  unfold State.onError
  dsimp only
  generalize (if s.role.active then s.stepDown s.term else s) = d at *
  split
  · exact h1
  · constructor <;> dsimp only <;> grind

theorem has_shutdown {s : State} (h : Has s) : Has s.shutdown := by
  unfold State.shutdown
  split
  · exact h
  · constructor <;> dsimp only <;> grind

theorem has_init (can conf snap : Bool) (term : Nat) : Has (State.init can conf snap term) := by
  unfold State.init
  dsimp only
  split
  · unfold State.stepDown State.stopOld State.startElec
    constructor <;> dsimp only <;> grind
  · constructor <;> dsimp only <;> grind

theorem has_step {s : State} (h : Has s) (f : Bool) (e : Ev) : Has (s.step f e) := by
  unfold State.step
  split
  · exact h
  · cases e with
    | bootElect a =>
      dsimp only
      have h1 : Has ({ s with boot := false } : State) := h.congr rfl rfl rfl rfl (.inl rfl) rfl rfl rfl
      repeat' split
      · exact has_electSelf h1 a
      · exact h1
      · exact h
    | electionTimeout a => exact has_electionTimeout h a
    | resumePre i a => exact has_resumePre h i a
    | preAnswer i r c a => exact has_preAnswer h i r c a
    | resumeElect i a => exact has_resumeElect h f i a
    | voteAnswer i r c a => exact has_voteAnswer h f i r c a
    | grantFire i a => exact has_grantFire h f i a
    | voteTimeout b a => exact has_voteTimeout h b a
    | timeoutNow t a => exact has_timeoutNow h t a
    | heard t l c => exact has_heard h t l c
    | stepDownTo t => exact has_stepDown h t
    | resetPeers => exact has_resetPeers h
    | voteApi =>
      dsimp only
      unfold State.voteApi
      split
      · exact h
      · exact h.congr rfl rfl rfl rfl (.inl rfl) rfl rfl rfl
    | transfer =>
      obtain ⟨h1, h2, h3⟩ := h
      dsimp only
      unfold State.transfer
      constructor <;> grind
    | transferTimeout t =>
      obtain ⟨h1, h2, h3⟩ := h
      dsimp only
      unfold State.transferTimeout
      constructor <;> grind
    | onError => exact has_onError h
    | shutdown => exact has_shutdown h

theorem has_run {s : State} (h : Has s) (f : Bool) (es : List Ev) : Has (run f s es) := by
  induction es generalizing s with
  | nil => exact h
  | cons e es ih => exact ih (has_step h f e)

/-! ### No other timer, and inactive nodes stay inactive: calm runs -/

/-- The invariant of calm runs. -/
structure Inv (s : State) : Prop where
  ok : s.aborted = false
  dead : s.dead = true ↔ s.role = .shutting
  fol : s.role = .follower → s.vote = false ∧ s.down = false
  cand : s.role = .candidate → s.elec = false ∧ s.down = false
  lead : s.role.leads = true → s.elec = false ∧ s.vote = false
  err : s.role = .error → s.vote = false ∧ s.down = false
  shut : s.role = .shutting → s.elec = false ∧ s.vote = false ∧ s.down = false ∧ s.snap = false
  pfrLe : ∀ f ∈ s.pfr, f.1 ≤ s.term
  pfrRole : ∀ f ∈ s.pfr, f.1 = s.term → s.role = .follower ∨ s.role.active = false
  efrLe : ∀ t ∈ s.efr, t ≤ s.term
  efrNodup : s.efr.Nodup
  fresh : s.term ∈ s.efr → s.vctx.ans = false ∧ ∀ p ∈ s.vsent, p.1 < s.vctx.ver
  sentLe : ∀ p ∈ s.vsent, p.1 ≤ s.vctx.ver
  gvLe : ∀ v, (true, v) ∈ s.gts → v ≤ s.vctx.ver
  gpLe : ∀ v, (false, v) ∈ s.gts → v ≤ s.pctx.ver
  gv : ∀ v, (true, v) ∈ s.gts → v = s.vctx.ver → s.role = .candidate ∨ s.vctx.ans = false ∨ s.role.active = false
  gp : ∀ v, (false, v) ∈ s.gts → v = s.pctx.ver → s.role = .follower ∨ s.role.active = false

theorem inv_stepDown {s : State} (h : Inv s) (t : Nat) : Inv (s.stepDown t) := by
  obtain ⟨h1, h2, h3, h4, h5, h6, h7, h8, h9, h10, h11, h12, h13, h14, h15, h16, h17⟩ := h
  obtain ⟨role⟩ := s
  unfold State.stepDown State.stopOld State.startElec Ctx.reset
  dsimp only at *
  cases role <;> simp (config := { decide := true }) only [Role.active, Role.leads, if_true, if_false, reduceCtorEq] at * <;>
    constructor <;> dsimp only <;> grind

theorem inv_electSelf {s : State} (h : Inv s) (hr : s.role = .follower ∨ s.role = .candidate) (a : Arg) :
    Inv (s.electSelf a) := by
  obtain ⟨h1, h2, h3, h4, h5, h6, h7, h8, h9, h10, h11, h12, h13, h14, h15, h16, h17⟩ := h
  obtain ⟨role⟩ := s
  unfold State.electSelf State.startVote Ctx.reset Ctx.init
  dsimp only at *
  rcases hr with hr | hr <;> subst hr <;> split <;>
    simp (config := { decide := true }) only [Role.active, Role.leads, if_true, if_false, reduceCtorEq] at * <;>
    constructor <;> dsimp only <;> grind

theorem inv_becomeLeader {s : State} (h : Inv s) (hr : s.role = .candidate) (f : Bool) :
    Inv (s.becomeLeader f) := by
  obtain ⟨h1, h2, h3, h4, h5, h6, h7, h8, h9, h10, h11, h12, h13, h14, h15, h16, h17⟩ := h
  obtain ⟨role⟩ := s
  unfold State.becomeLeader State.startDown Ctx.reset
  dsimp only at *
  subst hr
  simp (config := { decide := true }) only [Role.active, Role.leads, if_true, if_false, reduceCtorEq, false_and] at *
  constructor <;> dsimp only <;> grind

theorem inv_grantPre {s : State} (h : Inv s) (a : Arg) (h1 : s.role = .follower ∨ s.role.active = false)
    (h2 : s.pctx.full a.enough = true → s.role = .follower) : Inv (s.grantPre a) := by
  unfold State.grantPre
  split
  · split
    · rename_i hf
      exact inv_electSelf h (.inl (h2 hf)) a
    · exact h
  · refine { h with gvLe := ?_, gpLe := ?_, gv := ?_, gp := ?_ }
    · intro v hv; exact h.gvLe v (by simpa using hv)
    · intro v hv
      rcases List.mem_cons.1 hv with e | e
      · cases e; exact Nat.le_refl _
      · exact h.gpLe v e
    · intro v hv; exact h.gv v (by simpa using hv)
    · intro v hv hq; exact h1

theorem inv_grantVote {s : State} (h : Inv s) (f : Bool) (a : Arg)
    (h1 : s.role = .candidate ∨ s.vctx.ans = false ∨ s.role.active = false)
    (h2 : s.vctx.full a.enough = true → s.role = .candidate) : Inv (s.grantVote f a) := by
  unfold State.grantVote
  split
  · split
    · rename_i hf
      exact inv_becomeLeader h (h2 hf) f
    · exact h
  · refine { h with gvLe := ?_, gpLe := ?_, gv := ?_, gp := ?_ }
    · intro v hv
      rcases List.mem_cons.1 hv with e | e
      · cases e; exact Nat.le_refl _
      · exact h.gvLe v e
    · intro v hv; exact h.gpLe v (by simpa using hv)
    · intro v hv hq; exact h1
    · intro v hv; exact h.gp v (by simpa using hv)

theorem inv_resumePre {s : State} (h : Inv s) (i : Nat) (a : Arg) (hc : Calm s (.resumePre i a)) :
    Inv (s.resumePre i a) := by
  unfold State.resumePre
  split
  · exact h
  · rename_i t g hi
    have hm : (t, g) ∈ s.pfr := List.mem_of_getElem? hi
    have hsub : ∀ f, f ∈ s.pfr.eraseIdx i → f ∈ s.pfr := fun f hf => List.mem_of_mem_eraseIdx hf
    dsimp only
    split
    · exact { h with pfrLe := fun f hf => h.pfrLe f (hsub f hf), pfrRole := fun f hf => h.pfrRole f (hsub f hf) }
    · rename_i ht
      have ht' : t = s.term := by simpa using ht
      have hr := h.pfrRole _ hm ht'
      refine inv_grantPre ?_ a hr ?_
      · refine { h with pfrLe := fun f hf => h.pfrLe f (hsub f hf), pfrRole := fun f hf => h.pfrRole f (hsub f hf),
                        gpLe := ?_, gp := ?_ }
        · intro v hv
          have := h.gpLe v hv
          show v ≤ s.pctx.ver + 1
          omega
        · intro v hv hq
          exact hr
      · intro hf
        refine hc ?_
        simpa [Ctx.full, Ctx.init] using hf

theorem inv_resumeElect {s : State} (h : Inv s) (f : Bool) (i : Nat) (a : Arg) (hc : Calm s (.resumeElect i a)) :
    Inv (s.resumeElect f i a) := by
  unfold State.resumeElect
  split
  · exact h
  · rename_i t hi
    have hm : t ∈ s.efr := List.mem_of_getElem? hi
    have hsub : ∀ f, f ∈ s.efr.eraseIdx i → f ∈ s.efr := fun f hf => List.mem_of_mem_eraseIdx hf
    have hnd : (s.efr.eraseIdx i).Nodup := h.efrNodup.sublist (List.eraseIdx_sublist ..)
    dsimp only
    split
    · exact { h with efrLe := fun f hf => h.efrLe f (hsub f hf), efrNodup := hnd, fresh := fun hx => h.fresh (hsub _ hx) }
    · rename_i ht
      have ht' : t = s.term := by simpa using ht
      have hfr := h.fresh (ht' ▸ hm)
      have hnot : s.term ∉ s.efr.eraseIdx i := by
        have hlt : i < s.efr.length := (List.getElem?_eq_some_iff.1 hi).1
        have he : s.efr[i] = s.term := by rw [← ht']; exact (List.getElem?_eq_some_iff.1 hi).2
        intro hx
        rw [List.mem_eraseIdx_iff_getElem] at hx
        obtain ⟨j, hj, hne, hje⟩ := hx
        exact hne ((List.getElem_inj h.efrNodup).1 (hje.trans he.symm))
      have h1 : Inv ({ s with efr := s.efr.eraseIdx i, vsent := (s.vctx.ver, s.term) :: s.vsent } : State) :=
        { h with
          efrLe := fun f hf => h.efrLe f (hsub f hf)
          efrNodup := hnd
          fresh := fun hx => absurd hx hnot
          sentLe := by
            intro p hp
            rcases List.mem_cons.1 hp with e | e
            · subst e; exact Nat.le_refl _
            · exact h.sentLe p e }
      split
      · refine inv_grantVote h1 f a (.inr (.inl hfr.1)) ?_
        intro hf
        refine hc ?_
        have : s.vctx.full a.enough = true := hf
        simpa [Ctx.full, hfr.1] using this
      · exact h1

theorem inv_preVote {s : State} (h : Inv s) (hr : s.role = .follower) (a : Arg) (g : Bool) : Inv (s.preVote a g) := by
  unfold State.preVote
  split
  · exact h
  · split
    · refine { h with pfrLe := ?_, pfrRole := ?_ }
      · intro f hf
        rcases List.mem_cons.1 hf with e | e
        · subst e; exact Nat.le_refl _
        · exact h.pfrLe f e
      · intro f hf _; exact .inl hr
    · exact h

theorem inv_electionTimeout {s : State} (h : Inv s) (a : Arg) : Inv (s.electionTimeout a) := by
  unfold State.electionTimeout
  split
  · exact h
  · rename_i hr
    split
    · exact h
    · refine inv_preVote ?_ (by simpa using hr) a _
      exact { h with }

theorem stepDown_role {s : State} (h : s.role.active = true) (t : Nat) : (s.stepDown t).role = .follower := by
  unfold State.stepDown State.startElec
  rw [if_pos h]

theorem inv_voteTimeout {s : State} (h : Inv s) (b : Bool) (a : Arg) : Inv (s.voteTimeout b a) := by
  unfold State.voteTimeout
  split
  · exact h
  · rename_i hr
    have hr' : s.role = .candidate := by simpa using hr
    split
    · exact inv_preVote (inv_stepDown h _) (stepDown_role (by rw [hr']; rfl) _) a _
    · exact inv_electSelf h (.inr hr') a

theorem inv_preAnswer {s : State} (h : Inv s) (i r : Nat) (c : Bool) (a : Arg) : Inv (s.preAnswer i r c a) := by
  have h1 := inv_stepDown h r
  have h2 : Inv ({ s with pctx := { s.pctx with ans := true } } : State) := { h with }
  unfold State.preAnswer
  dsimp only
  repeat' split
  all_goals first
    | exact h
    | exact h1
    | exact h2
    | (refine inv_electSelf h2 ?_ a; rename_i hr _ _ _ _; exact .inl (by simpa using hr))

theorem inv_voteAnswer {s : State} (h : Inv s) (f : Bool) (i r : Nat) (c : Bool) (a : Arg) :
    Inv (s.voteAnswer f i r c a) := by
  have h1 := inv_stepDown h r
  unfold State.voteAnswer
  split
  · exact h
  · rename_i v t hi
    have hm := List.mem_of_getElem? hi
    split
    · exact h
    · rename_i hv
      have hv' : v = s.vctx.ver := by simpa using hv
      split
      · exact h
      · rename_i hr
        have hr' : s.role = .candidate := by simpa using hr
        have h2 : Inv ({ s with vctx := { s.vctx with ans := true } } : State) :=
          { h with
            fresh := by
              intro hx
              have := (h.fresh hx).2 _ hm
              simp only [hv'] at this
              omega
            gv := fun v hv hq => .inl hr' }
        dsimp only
        repeat' split
        all_goals first
          | exact h
          | exact h1
          | exact h2
          | exact inv_becomeLeader h2 hr' f

theorem inv_grantFire {s : State} (h : Inv s) (f : Bool) (i : Nat) (a : Arg) (hc : Calm s (.grantFire i a)) :
    Inv (s.grantFire f i a) := by
  unfold State.grantFire
  split
  · exact h
  · rename_i iv v hi
    have hm := List.mem_of_getElem? hi
    have hsub : ∀ f, f ∈ s.gts.eraseIdx i → f ∈ s.gts := fun f hf => List.mem_of_mem_eraseIdx hf
    have h1 : Inv ({ s with gts := s.gts.eraseIdx i } : State) :=
      { h with gvLe := fun v hv => h.gvLe v (hsub _ hv), gpLe := fun v hv => h.gpLe v (hsub _ hv),
               gv := fun v hv => h.gv v (hsub _ hv), gp := fun v hv => h.gp v (hsub _ hv) }
    dsimp only
    split
    · exact h1
    · rename_i hact
      have hact' : s.role.active = true := by simpa using hact
      split
      · split
        · exact h1
        · rename_i hiv hv
          have hv' : v = s.vctx.ver := by simpa using hv
          subst hiv
          have hg := h.gv _ hm hv'
          refine inv_grantVote h1 f a hg ?_
          intro hf
          have hf' : s.vctx.full a.enough = true := hf
          show s.role = .candidate
          by_cases hs : s.vctx.solo = true
          · exact hc v hi hv' hs hact'
          · rcases hg with e | e | e
            · exact e
            · simp [Ctx.full, hs, e] at hf'
            · rw [hact'] at e; cases e
      · split
        · exact h1
        · rename_i hiv hv
          have hv' : v = s.pctx.ver := by simpa using hv
          have hiv' : iv = false := by simpa using hiv
          subst hiv'
          have hg := h.gp _ hm hv'
          refine inv_grantPre h1 a hg ?_
          intro _
          rcases hg with e | e
          · exact e
          · rw [hact'] at e; cases e

theorem inv_timeoutNow {s : State} (h : Inv s) (t : Nat) (a : Arg) : Inv (s.timeoutNow t a) := by
  unfold State.timeoutNow
  repeat' split
  · exact inv_stepDown h t
  · exact h
  · exact h
  · rename_i hr
    exact inv_electSelf h (.inl (by simpa using hr)) a

theorem inv_pbump {s : State} (h : Inv s) (l : Option Nat) :
    Inv ({ s with lid := l, pctx := s.pctx.reset } : State) :=
  { h with
    gpLe := fun v hv => Nat.le_succ_of_le (h.gpLe v hv)
    gp := by
      intro v hv hq
      have h1 := h.gpLe v hv
      have h2 : v = s.pctx.ver + 1 := hq
      omega }

theorem inv_checkStepDown {s : State} (h : Inv s) (t l : Nat) : Inv (s.checkStepDown t l) := by
  have h1 := inv_stepDown h t
  unfold State.checkStepDown
  dsimp only
  have h2 : Inv (if t > s.term then s.stepDown t
    else if s.role ≠ .follower then s.stepDown t
    else if s.lid = none then s.stepDown t else s) := by
    repeat' split
    all_goals first | exact h1 | exact h
  generalize (if t > s.term then s.stepDown t
    else if s.role ≠ .follower then s.stepDown t
    else if s.lid = none then s.stepDown t else s) = d at *
  split
  · exact inv_pbump h2 _
  · exact h2

theorem inv_heard {s : State} (h : Inv s) (t l : Nat) (c : Bool) : Inv (s.heard t l c) := by
  have h1 := inv_checkStepDown h t l
  unfold State.heard
  split
  · exact h
  · split
    · exact h
    · dsimp only
      split
      · exact { h1 with }
      · exact inv_stepDown h1 _

theorem inv_resetPeers {s : State} (h : Inv s) : Inv s.resetPeers := by
  unfold State.resetPeers
  split
  · exact h
  · refine inv_stepDown (s := { s with conf := true }) ?_ _
    exact { h with }

theorem inv_init (can conf snap : Bool) (term : Nat) : Inv (State.init can conf snap term) := by
  unfold State.init
  dsimp only
  split
  · refine inv_stepDown ?_ _
    constructor <;> simp [Role.leads, Role.active]
  · constructor <;> simp [Role.leads, Role.active]

theorem inv_onError {s : State} (h : Inv s) : Inv s.onError := by
  have h1 : Inv (if s.role.active then s.stepDown s.term else s) ∧
      ((if s.role.active then s.stepDown s.term else s).role = .follower ∨
       (if s.role.active then s.stepDown s.term else s).role.active = false) := by
    split
    · rename_i ha
      exact ⟨inv_stepDown h _, .inl (stepDown_role ha _)⟩
    · rename_i ha
      exact ⟨h, .inr (by simpa using ha)⟩
  unfold State.onError
  dsimp only
  generalize (if s.role.active then s.stepDown s.term else s) = d at *
  obtain ⟨hd, hr⟩ := h1
  split
  · exact hd
  · rename_i hns
    obtain ⟨h1, h2, h3, h4, h5, h6, h7, h8, h9, h10, h11, h12, h13, h14, h15, h16, h17⟩ := hd
    constructor <;> dsimp only
    · exact h1
    · constructor
      · intro e; exact absurd (h2.1 e) hns
      · intro e; cases e
    · intro e; cases e
    · intro e; cases e
    · intro e; cases e
    · intro _
      rcases hr with e | e
      · exact h3 e
      · generalize hro : d.role = ro at *
        cases ro <;> first | exact h6 rfl | exact absurd rfl hns | cases e
    · intro e; cases e
    · exact h8
    · intro _ _ _; exact .inr rfl
    · exact h10
    · exact h11
    · exact h12
    · exact h13
    · exact h14
    · exact h15
    · intro _ _ _; exact .inr (.inr rfl)
    · intro _ _ _; exact .inr rfl

theorem inv_shutdown {s : State} (h : Inv s) : Inv s.shutdown := by
  have h1 : Inv (if s.role.active then s.stepDown s.term else s) := by
    split
    · exact inv_stepDown h _
    · exact h
  unfold State.shutdown
  split
  · exact h
  · dsimp only
    generalize (if s.role.active then s.stepDown s.term else s) = d at *
    obtain ⟨h1, h2, h3, h4, h5, h6, h7, h8, h9, h10, h11, h12, h13, h14, h15, h16, h17⟩ := h1
    constructor <;> dsimp only
    · exact h1
    · simp
    · intro e; cases e
    · intro e; cases e
    · intro e; cases e
    · intro e; cases e
    · intro _; simp
    · exact h8
    · intro _ _ _; exact .inr rfl
    · exact h10
    · exact h11
    · exact h12
    · exact h13
    · exact h14
    · exact h15
    · intro _ _ _; exact .inr (.inr rfl)
    · intro _ _ _; exact .inr rfl

theorem inv_leads {s : State} (h : Inv s) (hl : s.role.leads = true) (r : Role) (hr : r.leads = true) :
    Inv ({ s with role := r } : State) := by
  have h5 := h.lead hl
  have hns : s.role ≠ .shutting := by intro e; rw [e] at hl; cases hl
  have hnf : s.role ≠ .follower := by intro e; rw [e] at hl; cases hl
  have hnc : s.role ≠ .candidate := by intro e; rw [e] at hl; cases hl
  have hna : s.role.active ≠ false := by intro e; revert hl e; cases s.role <;> decide
  have hrs : r ≠ .shutting := by intro e; rw [e] at hr; cases hr
  obtain ⟨h1, h2, h3, h4, h5', h6, h7, h8, h9, h10, h11, h12, h13, h14, h15, h16, h17⟩ := h
  constructor <;> dsimp only
  · exact h1
  · constructor
    · intro e; exact absurd (h2.1 e) hns
    · intro e; exact absurd e hrs
  · intro e; rw [e] at hr; cases hr
  · intro e; rw [e] at hr; cases hr
  · intro _; exact h5
  · intro e; rw [e] at hr; cases hr
  · intro e; exact absurd e hrs
  · exact h8
  · intro f hf hq; rcases h9 f hf hq with e | e
    · exact absurd e hnf
    · exact absurd e hna
  · exact h10
  · exact h11
  · exact h12
  · exact h13
  · exact h14
  · exact h15
  · intro v hv hq; rcases h16 v hv hq with e | e | e
    · exact absurd e hnc
    · exact .inr (.inl e)
    · exact absurd e hna
  · intro v hv hq; rcases h17 v hv hq with e | e
    · exact absurd e hnf
    · exact absurd e hna

theorem inv_step {s : State} (h : Inv s) (f : Bool) (e : Ev) (hc : Calm s e) : Inv (s.step f e) := by
  unfold State.step
  split
  · exact h
  · cases e with
    | bootElect a =>
      have h1 : Inv ({ s with boot := false } : State) := { h with }
      dsimp only
      split
      · split
        · rename_i hs
          exact inv_electSelf h1 (hc hs) a
        · exact h1
      · exact h
    | electionTimeout a => exact inv_electionTimeout h a
    | resumePre i a => exact inv_resumePre h i a hc
    | preAnswer i r c a => exact inv_preAnswer h i r c a
    | resumeElect i a => exact inv_resumeElect h f i a hc
    | voteAnswer i r c a => exact inv_voteAnswer h f i r c a
    | grantFire i a => exact inv_grantFire h f i a hc
    | voteTimeout b a => exact inv_voteTimeout h b a
    | timeoutNow t a => exact inv_timeoutNow h t a
    | heard t l c => exact inv_heard h t l c
    | stepDownTo t => exact inv_stepDown h t
    | resetPeers => exact inv_resetPeers h
    | voteApi =>
      dsimp only
      unfold State.voteApi
      split
      · exact h
      · exact { h with }
    | transfer =>
      dsimp only
      unfold State.transfer
      split
      · exact h
      · rename_i hr
        exact inv_leads h (by simp at hr; rw [hr]; rfl) _ rfl
    | transferTimeout t =>
      dsimp only
      unfold State.transferTimeout
      split
      · rename_i hr
        exact inv_leads h (by rw [hr.2]; rfl) _ rfl
      · exact h
    | onError => exact inv_onError h
    | shutdown => exact inv_shutdown h

theorem inv_run {s : State} (h : Inv s) (f : Bool) (es : List Ev) (hc : CalmRun f s es) : Inv (run f s es) := by
  induction es generalizing s with
  | nil => exact h
  | cons e es ih => exact ih (inv_step h f e hc.1) hc.2

/-! ### Inactive nodes -/

theorem stepDown_inactive {s : State} (h : s.role.active = false) (t : Nat) : s.stepDown t = s := by
  unfold State.stepDown
  rw [h]
  rfl

/-- In an inactive node a calm step leaves role (but for ERROR, which shutdown ends) and term alone. -/
theorem inactive_step {s : State} (h : Inv s) (hr : s.role.active = false) (f : Bool) (e : Ev) (hc : Calm s e) :
    (s.step f e).role.active = false ∧ (s.step f e).term = s.term ∧
    (s.role = .shutting → (s.step f e).role = .shutting) := by
  have hnf : s.role ≠ .follower := by intro e; rw [e] at hr; cases hr
  have hnc : s.role ≠ .candidate := by intro e; rw [e] at hr; cases hr
  have hnl : s.role ≠ .leader := by intro e; rw [e] at hr; cases hr
  have hnt : s.role ≠ .transferring := by intro e; rw [e] at hr; cases hr
  have hsd := fun t => stepDown_inactive hr t
  have hself : s.role.active = false ∧ s.term = s.term ∧ (s.role = .shutting → s.role = .shutting) := ⟨hr, rfl, id⟩
  unfold State.step
  split
  · exact hself
  · cases e with
    | bootElect a =>
      dsimp only
      split
      · split
        · rename_i hs
          rcases hc hs with e | e
          · exact absurd e hnf
          · exact absurd e hnc
        · exact hself
      · exact hself
    | electionTimeout a =>
      dsimp only
      unfold State.electionTimeout
      rw [if_pos hnf]
      exact hself
    | resumePre i a =>
      dsimp only
      unfold State.resumePre
      split
      · exact hself
      · dsimp only
        split
        · exact hself
        · unfold State.grantPre
          split
          · split
            · rename_i hf
              have : a.solo = true := by simpa [Ctx.full, Ctx.init] using hf
              exact absurd (hc this) hnf
            · exact hself
          · exact hself
    | preAnswer i r c a =>
      dsimp only
      unfold State.preAnswer
      split
      · exact hself
      · split
        · exact hself
        · exact hself
    | resumeElect i a =>
      dsimp only
      unfold State.resumeElect
      split
      · exact hself
      · rename_i t hi
        have hm := List.mem_of_getElem? hi
        dsimp only
        split
        · exact hself
        · rename_i ht
          have ht' : t = s.term := by simpa using ht
          have hfr := h.fresh (ht' ▸ hm)
          split
          · unfold State.grantVote
            split
            · split
              · rename_i hf
                have : s.vctx.solo = true := by simpa [Ctx.full, hfr.1] using hf
                exact absurd (hc this) hnc
              · exact hself
            · exact hself
          · exact hself
    | voteAnswer i r c a =>
      dsimp only
      unfold State.voteAnswer
      split
      · exact hself
      · split
        · exact hself
        · exact hself
    | grantFire i a =>
      dsimp only
      unfold State.grantFire
      split
      · exact hself
      · dsimp only
        rw [if_pos hr]
        exact hself
    | voteTimeout b a =>
      dsimp only
      unfold State.voteTimeout
      rw [if_pos hnc]
      exact hself
    | timeoutNow t a =>
      dsimp only
      unfold State.timeoutNow
      rw [hsd]
      split
      · split <;> exact hself
      · exact hself
    | heard t l c =>
      dsimp only
      unfold State.heard
      rw [if_pos hr]
      exact hself
    | stepDownTo t =>
      dsimp only
      rw [hsd]
      exact hself
    | resetPeers =>
      dsimp only
      unfold State.resetPeers
      rw [if_pos hr]
      exact hself
    | voteApi =>
      dsimp only
      unfold State.voteApi
      rw [if_pos hnf]
      exact hself
    | transfer =>
      dsimp only
      unfold State.transfer
      rw [if_pos hnl]
      exact hself
    | transferTimeout t =>
      dsimp only
      unfold State.transferTimeout
      rw [if_neg (fun x => hnt x.2)]
      exact hself
    | onError =>
      dsimp only
      unfold State.onError
      rw [hr]
      dsimp only
      simp only [Bool.false_eq_true, if_false]
      split
      · exact hself
      · rename_i hns
        exact ⟨rfl, rfl, fun e => absurd e hns⟩
    | shutdown =>
      dsimp only
      unfold State.shutdown
      split
      · exact hself
      · rw [hr]
        exact ⟨rfl, rfl, fun _ => rfl⟩

theorem inactive_run {s : State} (h : Inv s) (hr : s.role.active = false) (f : Bool) (es : List Ev) (hc : CalmRun f s es) :
    (run f s es).role.active = false ∧ (run f s es).term = s.term ∧
    (s.role = .shutting → (run f s es).role = .shutting) := by
  induction es generalizing s with
  | nil => exact ⟨hr, rfl, id⟩
  | cons e es ih =>
    have h1 := inactive_step h hr f e hc.1
    have h2 := ih (inv_step h f e hc.1) h1.1 hc.2
    exact ⟨h2.1, h2.2.1.trans h1.2.1, fun hs => h2.2.2 (h1.2.2 hs)⟩

/-! ### Groups where the vote of the node alone is no quorum are calm -/

theorem solo_step {s : State} (h : s.vctx.solo = false) (f : Bool) (e : Ev) (he : ∀ a, e.arg? = some a → a.solo = false) :
    (s.step f e).vctx.solo = false := by
  have hsd : ∀ (s : State) t, s.vctx.solo = false → (s.stepDown t).vctx.solo = false := by
    intro s t h
    unfold State.stepDown State.stopOld State.startElec Ctx.reset
    grind
  have hel : ∀ (s : State) a, s.vctx.solo = false → a.solo = false → (s.electSelf a).vctx.solo = false := by
    intro s a h ha
    unfold State.electSelf State.startVote Ctx.init
    grind
  have hbl : ∀ (s : State), s.vctx.solo = false → (s.becomeLeader f).vctx.solo = false := by
    intro s h
    unfold State.becomeLeader State.startDown Ctx.reset
    grind
  have hgp : ∀ (s : State) a, s.vctx.solo = false → a.solo = false → (s.grantPre a).vctx.solo = false := by
    intro s a h ha
    unfold State.grantPre
    grind
  have hgv : ∀ (s : State) a, s.vctx.solo = false → (s.grantVote f a).vctx.solo = false := by
    intro s a h
    unfold State.grantVote
    grind
  have hpv : ∀ (s : State) a g, s.vctx.solo = false → (s.preVote a g).vctx.solo = false := by
    intro s a g h
    unfold State.preVote
    grind
  unfold State.step
  split
  · exact h
  · cases e with
    | bootElect a =>
      have ha := he a rfl
      dsimp only
      repeat' split
      all_goals (first | exact h | exact hsd _ _ h | exact hel _ _ h ha | exact hbl _ h | exact hgp _ _ h ha | exact hgv _ _ h | exact hpv _ _ _ h | exact hpv _ _ _ (hsd _ _ h) | exact hsd _ _ (hsd _ _ h))
    | electionTimeout a =>
      dsimp only
      unfold State.electionTimeout
      try dsimp only
      repeat' split
      all_goals (first | exact h | exact hsd _ _ h | exact hel _ _ h ha | exact hbl _ h | exact hgp _ _ h ha | exact hgv _ _ h | exact hpv _ _ _ h | exact hpv _ _ _ (hsd _ _ h) | exact hsd _ _ (hsd _ _ h))
    | resumePre i a =>
      have ha := he a rfl
      dsimp only
      unfold State.resumePre
      try dsimp only
      repeat' split
      all_goals (first | exact h | exact hsd _ _ h | exact hel _ _ h ha | exact hbl _ h | exact hgp _ _ h ha | exact hgv _ _ h | exact hpv _ _ _ h | exact hpv _ _ _ (hsd _ _ h) | exact hsd _ _ (hsd _ _ h))
    | preAnswer i r c a =>
      have ha := he a rfl
      dsimp only
      unfold State.preAnswer
      try dsimp only
      repeat' split
      all_goals (first | exact h | exact hsd _ _ h | exact hel _ _ h ha | exact hbl _ h | exact hgp _ _ h ha | exact hgv _ _ h | exact hpv _ _ _ h | exact hpv _ _ _ (hsd _ _ h) | exact hsd _ _ (hsd _ _ h))
    | resumeElect i a =>
      dsimp only
      unfold State.resumeElect
      try dsimp only
      repeat' split
      all_goals (first | exact h | exact hsd _ _ h | exact hel _ _ h ha | exact hbl _ h | exact hgp _ _ h ha | exact hgv _ _ h | exact hpv _ _ _ h | exact hpv _ _ _ (hsd _ _ h) | exact hsd _ _ (hsd _ _ h))
    | voteAnswer i r c a =>
      dsimp only
      unfold State.voteAnswer
      try dsimp only
      repeat' split
      all_goals (first | exact h | exact hsd _ _ h | exact hel _ _ h ha | exact hbl _ h | exact hgp _ _ h ha | exact hgv _ _ h | exact hpv _ _ _ h | exact hpv _ _ _ (hsd _ _ h) | exact hsd _ _ (hsd _ _ h))
    | grantFire i a =>
      have ha := he a rfl
      dsimp only
      unfold State.grantFire
      try dsimp only
      repeat' split
      all_goals (first | exact h | exact hsd _ _ h | exact hel _ _ h ha | exact hbl _ h | exact hgp _ _ h ha | exact hgv _ _ h | exact hpv _ _ _ h | exact hpv _ _ _ (hsd _ _ h) | exact hsd _ _ (hsd _ _ h))
    | voteTimeout b a =>
      have ha := he a rfl
      dsimp only
      unfold State.voteTimeout
      try dsimp only
      repeat' split
      all_goals (first | exact h | exact hsd _ _ h | exact hel _ _ h ha | exact hbl _ h | exact hgp _ _ h ha | exact hgv _ _ h | exact hpv _ _ _ h | exact hpv _ _ _ (hsd _ _ h) | exact hsd _ _ (hsd _ _ h))
    | timeoutNow t a =>
      have ha := he a rfl
      dsimp only
      unfold State.timeoutNow
      try dsimp only
      repeat' split
      all_goals (first | exact h | exact hsd _ _ h | exact hel _ _ h ha | exact hbl _ h | exact hgp _ _ h ha | exact hgv _ _ h | exact hpv _ _ _ h | exact hpv _ _ _ (hsd _ _ h) | exact hsd _ _ (hsd _ _ h))
    | heard t l c =>
      dsimp only
      unfold State.heard State.checkStepDown
      try dsimp only
      repeat' split
      all_goals (first | exact h | exact hsd _ _ h | exact hel _ _ h ha | exact hbl _ h | exact hgp _ _ h ha | exact hgv _ _ h | exact hpv _ _ _ h | exact hpv _ _ _ (hsd _ _ h) | exact hsd _ _ (hsd _ _ h))
    | stepDownTo t =>
      dsimp only
      repeat' split
      all_goals (first | exact h | exact hsd _ _ h | exact hel _ _ h ha | exact hbl _ h | exact hgp _ _ h ha | exact hgv _ _ h | exact hpv _ _ _ h | exact hpv _ _ _ (hsd _ _ h) | exact hsd _ _ (hsd _ _ h))
    | resetPeers =>
      dsimp only
      unfold State.resetPeers
      try dsimp only
      repeat' split
      all_goals (first | exact h | exact hsd _ _ h | exact hel _ _ h ha | exact hbl _ h | exact hgp _ _ h ha | exact hgv _ _ h | exact hpv _ _ _ h | exact hpv _ _ _ (hsd _ _ h) | exact hsd _ _ (hsd _ _ h))
    | voteApi =>
      dsimp only
      unfold State.voteApi
      try dsimp only
      repeat' split
      all_goals (first | exact h | exact hsd _ _ h | exact hel _ _ h ha | exact hbl _ h | exact hgp _ _ h ha | exact hgv _ _ h | exact hpv _ _ _ h | exact hpv _ _ _ (hsd _ _ h) | exact hsd _ _ (hsd _ _ h))
    | transfer =>
      dsimp only
      unfold State.transfer
      try dsimp only
      repeat' split
      all_goals (first | exact h | exact hsd _ _ h | exact hel _ _ h ha | exact hbl _ h | exact hgp _ _ h ha | exact hgv _ _ h | exact hpv _ _ _ h | exact hpv _ _ _ (hsd _ _ h) | exact hsd _ _ (hsd _ _ h))
    | transferTimeout t =>
      dsimp only
      unfold State.transferTimeout
      try dsimp only
      repeat' split
      all_goals (first | exact h | exact hsd _ _ h | exact hel _ _ h ha | exact hbl _ h | exact hgp _ _ h ha | exact hgv _ _ h | exact hpv _ _ _ h | exact hpv _ _ _ (hsd _ _ h) | exact hsd _ _ (hsd _ _ h))
    | onError =>
      dsimp only
      unfold State.onError
      try dsimp only
      repeat' split
      all_goals (first | exact h | exact hsd _ _ h | exact hel _ _ h ha | exact hbl _ h | exact hgp _ _ h ha | exact hgv _ _ h | exact hpv _ _ _ h | exact hpv _ _ _ (hsd _ _ h) | exact hsd _ _ (hsd _ _ h))
    | shutdown =>
      dsimp only
      unfold State.shutdown
      try dsimp only
      repeat' split
      all_goals (first | exact h | exact hsd _ _ h | exact hel _ _ h ha | exact hbl _ h | exact hgp _ _ h ha | exact hgv _ _ h | exact hpv _ _ _ h | exact hpv _ _ _ (hsd _ _ h) | exact hsd _ _ (hsd _ _ h))

theorem calm_of_multi {s : State} (h : s.vctx.solo = false) (f : Bool) (es : List Ev)
    (he : ∀ e ∈ es, ∀ a, e.arg? = some a → a.solo = false) : CalmRun f s es := by
  induction es generalizing s with
  | nil => trivial
  | cons e es ih =>
    have h1 := he e (List.mem_cons_self ..)
    refine ⟨?_, ih (solo_step h f e h1) (fun x hx => he x (List.mem_cons_of_mem _ hx))⟩
    cases e <;> simp only [Calm]
    · intro hs; rw [h1 _ rfl] at hs; cases hs
    · intro hs; rw [h1 _ rfl] at hs; cases hs
    · intro hs; rw [h] at hs; cases hs
    · intro _ _ _ hs; rw [h] at hs; cases hs

theorem init_solo (can conf snap : Bool) (term : Nat) : (State.init can conf snap term).vctx.solo = false := by
  unfold State.init State.stepDown State.stopOld State.startElec
  cases conf <;> rfl

/-! ### vote() -/

/-- Triggered pre-votes are paid for by calls of vote(). -/
def Paid (s : State) : Prop := s.trigs + (if s.trig then 1 else 0) ≤ s.calls

theorem paid_step {s : State} (h : Paid s) (f : Bool) (e : Ev) : Paid (s.step f e) := by
  have hsd : ∀ (s : State) t, Paid s → Paid (s.stepDown t) := by
    intro s t h
    unfold Paid at *
    unfold State.stepDown State.stopOld State.startElec
    grind
  have hel : ∀ (s : State) a, Paid s → Paid (s.electSelf a) := by
    intro s a h
    unfold Paid at *
    unfold State.electSelf State.startVote
    grind
  have hbl : ∀ (s : State), Paid s → Paid (s.becomeLeader f) := by
    intro s h
    unfold Paid at *
    unfold State.becomeLeader State.startDown
    grind
  have hgp : ∀ (s : State) a, Paid s → Paid (s.grantPre a) := by
    intro s a h
    unfold State.grantPre
    repeat' split
    · exact hel _ _ h
    · exact h
    · exact h
  have hgv : ∀ (s : State) a, Paid s → Paid (s.grantVote f a) := by
    intro s a h
    unfold State.grantVote
    repeat' split
    · exact hbl _ h
    · exact h
    · exact h
  have hpv : ∀ (s : State) a g, Paid s → Paid (s.preVote a g) := by
    intro s a g h
    unfold State.preVote
    repeat' split
    all_goals exact h
  unfold State.step
  split
  · exact h
  · cases e with
    | bootElect a =>
      dsimp only
      repeat' split
      all_goals (first | exact h | exact hsd _ _ h | exact hel _ _ h | exact hbl _ h | exact hgp _ _ h | exact hgv _ _ h | exact hpv _ _ _ h | exact hpv _ _ _ (hsd _ _ h) | exact hsd _ _ (hsd _ _ h))
    | electionTimeout a =>
      dsimp only
      unfold State.electionTimeout
      split
      · exact h
      · split
        · exact h
        · refine hpv _ _ _ ?_
          unfold Paid at *
          simpa using h
    | resumePre i a =>
      dsimp only
      unfold State.resumePre
      try dsimp only
      repeat' split
      all_goals (first | exact h | exact hsd _ _ h | exact hel _ _ h | exact hbl _ h | exact hgp _ _ h | exact hgv _ _ h | exact hpv _ _ _ h | exact hpv _ _ _ (hsd _ _ h) | exact hsd _ _ (hsd _ _ h))
    | preAnswer i r c a =>
      dsimp only
      unfold State.preAnswer
      try dsimp only
      repeat' split
      all_goals (first | exact h | exact hsd _ _ h | exact hel _ _ h | exact hbl _ h | exact hgp _ _ h | exact hgv _ _ h | exact hpv _ _ _ h | exact hpv _ _ _ (hsd _ _ h) | exact hsd _ _ (hsd _ _ h))
    | resumeElect i a =>
      dsimp only
      unfold State.resumeElect
      try dsimp only
      repeat' split
      all_goals (first | exact h | exact hsd _ _ h | exact hel _ _ h | exact hbl _ h | exact hgp _ _ h | exact hgv _ _ h | exact hpv _ _ _ h | exact hpv _ _ _ (hsd _ _ h) | exact hsd _ _ (hsd _ _ h))
    | voteAnswer i r c a =>
      dsimp only
      unfold State.voteAnswer
      try dsimp only
      repeat' split
      all_goals (first | exact h | exact hsd _ _ h | exact hel _ _ h | exact hbl _ h | exact hgp _ _ h | exact hgv _ _ h | exact hpv _ _ _ h | exact hpv _ _ _ (hsd _ _ h) | exact hsd _ _ (hsd _ _ h))
    | grantFire i a =>
      dsimp only
      unfold State.grantFire
      try dsimp only
      repeat' split
      all_goals (first | exact h | exact hsd _ _ h | exact hel _ _ h | exact hbl _ h | exact hgp _ _ h | exact hgv _ _ h | exact hpv _ _ _ h | exact hpv _ _ _ (hsd _ _ h) | exact hsd _ _ (hsd _ _ h))
    | voteTimeout b a =>
      dsimp only
      unfold State.voteTimeout
      try dsimp only
      repeat' split
      all_goals (first | exact h | exact hsd _ _ h | exact hel _ _ h | exact hbl _ h | exact hgp _ _ h | exact hgv _ _ h | exact hpv _ _ _ h | exact hpv _ _ _ (hsd _ _ h) | exact hsd _ _ (hsd _ _ h))
    | timeoutNow t a =>
      dsimp only
      unfold State.timeoutNow
      try dsimp only
      repeat' split
      all_goals (first | exact h | exact hsd _ _ h | exact hel _ _ h | exact hbl _ h | exact hgp _ _ h | exact hgv _ _ h | exact hpv _ _ _ h | exact hpv _ _ _ (hsd _ _ h) | exact hsd _ _ (hsd _ _ h))
    | heard t l c =>
      dsimp only
      unfold State.heard State.checkStepDown
      try dsimp only
      repeat' split
      all_goals (first | exact h | exact hsd _ _ h | exact hel _ _ h | exact hbl _ h | exact hgp _ _ h | exact hgv _ _ h | exact hpv _ _ _ h | exact hpv _ _ _ (hsd _ _ h) | exact hsd _ _ (hsd _ _ h))
    | stepDownTo t =>
      dsimp only
      repeat' split
      all_goals (first | exact h | exact hsd _ _ h | exact hel _ _ h | exact hbl _ h | exact hgp _ _ h | exact hgv _ _ h | exact hpv _ _ _ h | exact hpv _ _ _ (hsd _ _ h) | exact hsd _ _ (hsd _ _ h))
    | resetPeers =>
      dsimp only
      unfold State.resetPeers
      try dsimp only
      repeat' split
      all_goals (first | exact h | exact hsd _ _ h | exact hel _ _ h | exact hbl _ h | exact hgp _ _ h | exact hgv _ _ h | exact hpv _ _ _ h | exact hpv _ _ _ (hsd _ _ h) | exact hsd _ _ (hsd _ _ h))
    | voteApi =>
      dsimp only
      unfold State.voteApi Paid
      unfold Paid at h
      grind
    | transfer =>
      dsimp only
      unfold State.transfer
      try dsimp only
      repeat' split
      all_goals (first | exact h | exact hsd _ _ h | exact hel _ _ h | exact hbl _ h | exact hgp _ _ h | exact hgv _ _ h | exact hpv _ _ _ h | exact hpv _ _ _ (hsd _ _ h) | exact hsd _ _ (hsd _ _ h))
    | transferTimeout t =>
      dsimp only
      unfold State.transferTimeout
      try dsimp only
      repeat' split
      all_goals (first | exact h | exact hsd _ _ h | exact hel _ _ h | exact hbl _ h | exact hgp _ _ h | exact hgv _ _ h | exact hpv _ _ _ h | exact hpv _ _ _ (hsd _ _ h) | exact hsd _ _ (hsd _ _ h))
    | onError =>
      dsimp only
      unfold State.onError
      try dsimp only
      repeat' split
      all_goals (first | exact h | exact hsd _ _ h | exact hel _ _ h | exact hbl _ h | exact hgp _ _ h | exact hgv _ _ h | exact hpv _ _ _ h | exact hpv _ _ _ (hsd _ _ h) | exact hsd _ _ (hsd _ _ h))
    | shutdown =>
      dsimp only
      unfold State.shutdown
      try dsimp only
      repeat' split
      all_goals (first | exact h | exact hsd _ _ h | exact hel _ _ h | exact hbl _ h | exact hgp _ _ h | exact hgv _ _ h | exact hpv _ _ _ h | exact hpv _ _ _ (hsd _ _ h) | exact hsd _ _ (hsd _ _ h))

theorem paid_run {s : State} (h : Paid s) (f : Bool) (es : List Ev) : Paid (run f s es) := by
  induction es generalizing s with
  | nil => exact h
  | cons e es ih => exact ih (paid_step h f e)

theorem paid_init (can conf snap : Bool) (term : Nat) : Paid (State.init can conf snap term) := by
  unfold Paid State.init State.stepDown State.stopOld State.startElec
  cases conf <;> simp [Role.active]

theorem run_append (f : Bool) (s : State) (a b : List Ev) : run f s (a ++ b) = run f (run f s a) b := by
  induction a generalizing s with
  | nil => rfl
  | cons e es ih => exact ih _

theorem calmRun_append {f : Bool} {s : State} {a b : List Ev} (h : CalmRun f s (a ++ b)) :
    CalmRun f s a ∧ CalmRun f (run f s a) b := by
  induction a generalizing s with
  | nil => exact ⟨trivial, h⟩
  | cons e es ih =>
    have := ih h.2
    exact ⟨⟨h.1, this.1⟩, this.2⟩

/-! ### Only shutdown destroys the timers -/

/-- The timers are as init left them: not destroyed, initialised or not, the snapshot timer started or not. -/
def Keeps (b sn : Bool) (s : State) : Prop := s.dead = false ∧ s.can = b ∧ s.snap = sn

theorem keeps_step {s : State} {b sn : Bool} (h : Keeps b sn s) (f : Bool) (e : Ev) (hne : e ≠ .shutdown) :
    Keeps b sn (s.step f e) := by
  have hsd : ∀ (s : State) t, Keeps b sn s → Keeps b sn (s.stepDown t) := by
    intro s t h
    unfold Keeps at *
    unfold State.stepDown State.stopOld State.startElec
    grind
  have hel : ∀ (s : State) a, Keeps b sn s → Keeps b sn (s.electSelf a) := by
    intro s a h
    unfold Keeps at *
    unfold State.electSelf State.startVote
    grind
  have hbl : ∀ (s : State), Keeps b sn s → Keeps b sn (s.becomeLeader f) := by
    intro s h
    unfold Keeps at *
    unfold State.becomeLeader State.startDown
    grind
  have hgp : ∀ (s : State) a, Keeps b sn s → Keeps b sn (s.grantPre a) := by
    intro s a h
    unfold State.grantPre
    repeat' split
    · exact hel _ _ h
    · exact h
    · exact h
  have hgv : ∀ (s : State) a, Keeps b sn s → Keeps b sn (s.grantVote f a) := by
    intro s a h
    unfold State.grantVote
    repeat' split
    · exact hbl _ h
    · exact h
    · exact h
  have hpv : ∀ (s : State) a g, Keeps b sn s → Keeps b sn (s.preVote a g) := by
    intro s a g h
    unfold State.preVote
    repeat' split
    all_goals exact h
  unfold State.step
  split
  · exact h
  · cases e with
    | bootElect a =>
      dsimp only
      repeat' split
      all_goals (first | exact h | exact hsd _ _ h | exact hel _ _ h | exact hbl _ h | exact hgp _ _ h | exact hgv _ _ h | exact hpv _ _ _ h | exact hpv _ _ _ (hsd _ _ h) | exact hsd _ _ (hsd _ _ h))
    | electionTimeout a =>
      dsimp only
      unfold State.electionTimeout
      try dsimp only
      repeat' split
      all_goals (first | exact h | exact hsd _ _ h | exact hel _ _ h | exact hbl _ h | exact hgp _ _ h | exact hgv _ _ h | exact hpv _ _ _ h | exact hpv _ _ _ (hsd _ _ h) | exact hsd _ _ (hsd _ _ h))
    | resumePre i a =>
      dsimp only
      unfold State.resumePre
      try dsimp only
      repeat' split
      all_goals (first | exact h | exact hsd _ _ h | exact hel _ _ h | exact hbl _ h | exact hgp _ _ h | exact hgv _ _ h | exact hpv _ _ _ h | exact hpv _ _ _ (hsd _ _ h) | exact hsd _ _ (hsd _ _ h))
    | preAnswer i r c a =>
      dsimp only
      unfold State.preAnswer
      try dsimp only
      repeat' split
      all_goals (first | exact h | exact hsd _ _ h | exact hel _ _ h | exact hbl _ h | exact hgp _ _ h | exact hgv _ _ h | exact hpv _ _ _ h | exact hpv _ _ _ (hsd _ _ h) | exact hsd _ _ (hsd _ _ h))
    | resumeElect i a =>
      dsimp only
      unfold State.resumeElect
      try dsimp only
      repeat' split
      all_goals (first | exact h | exact hsd _ _ h | exact hel _ _ h | exact hbl _ h | exact hgp _ _ h | exact hgv _ _ h | exact hpv _ _ _ h | exact hpv _ _ _ (hsd _ _ h) | exact hsd _ _ (hsd _ _ h))
    | voteAnswer i r c a =>
      dsimp only
      unfold State.voteAnswer
      try dsimp only
      repeat' split
      all_goals (first | exact h | exact hsd _ _ h | exact hel _ _ h | exact hbl _ h | exact hgp _ _ h | exact hgv _ _ h | exact hpv _ _ _ h | exact hpv _ _ _ (hsd _ _ h) | exact hsd _ _ (hsd _ _ h))
    | grantFire i a =>
      dsimp only
      unfold State.grantFire
      try dsimp only
      repeat' split
      all_goals (first | exact h | exact hsd _ _ h | exact hel _ _ h | exact hbl _ h | exact hgp _ _ h | exact hgv _ _ h | exact hpv _ _ _ h | exact hpv _ _ _ (hsd _ _ h) | exact hsd _ _ (hsd _ _ h))
    | voteTimeout b a =>
      dsimp only
      unfold State.voteTimeout
      try dsimp only
      repeat' split
      all_goals (first | exact h | exact hsd _ _ h | exact hel _ _ h | exact hbl _ h | exact hgp _ _ h | exact hgv _ _ h | exact hpv _ _ _ h | exact hpv _ _ _ (hsd _ _ h) | exact hsd _ _ (hsd _ _ h))
    | timeoutNow t a =>
      dsimp only
      unfold State.timeoutNow
      try dsimp only
      repeat' split
      all_goals (first | exact h | exact hsd _ _ h | exact hel _ _ h | exact hbl _ h | exact hgp _ _ h | exact hgv _ _ h | exact hpv _ _ _ h | exact hpv _ _ _ (hsd _ _ h) | exact hsd _ _ (hsd _ _ h))
    | heard t l c =>
      dsimp only
      unfold State.heard State.checkStepDown
      try dsimp only
      repeat' split
      all_goals (first | exact h | exact hsd _ _ h | exact hel _ _ h | exact hbl _ h | exact hgp _ _ h | exact hgv _ _ h | exact hpv _ _ _ h | exact hpv _ _ _ (hsd _ _ h) | exact hsd _ _ (hsd _ _ h))
    | stepDownTo t =>
      dsimp only
      repeat' split
      all_goals (first | exact h | exact hsd _ _ h | exact hel _ _ h | exact hbl _ h | exact hgp _ _ h | exact hgv _ _ h | exact hpv _ _ _ h | exact hpv _ _ _ (hsd _ _ h) | exact hsd _ _ (hsd _ _ h))
    | resetPeers =>
      dsimp only
      unfold State.resetPeers
      try dsimp only
      repeat' split
      all_goals (first | exact h | exact hsd _ _ h | exact hel _ _ h | exact hbl _ h | exact hgp _ _ h | exact hgv _ _ h | exact hpv _ _ _ h | exact hpv _ _ _ (hsd _ _ h) | exact hsd _ _ (hsd _ _ h))
    | voteApi =>
      dsimp only
      unfold State.voteApi
      try dsimp only
      repeat' split
      all_goals (first | exact h | exact hsd _ _ h | exact hel _ _ h | exact hbl _ h | exact hgp _ _ h | exact hgv _ _ h | exact hpv _ _ _ h | exact hpv _ _ _ (hsd _ _ h) | exact hsd _ _ (hsd _ _ h))
    | transfer =>
      dsimp only
      unfold State.transfer
      try dsimp only
      repeat' split
      all_goals (first | exact h | exact hsd _ _ h | exact hel _ _ h | exact hbl _ h | exact hgp _ _ h | exact hgv _ _ h | exact hpv _ _ _ h | exact hpv _ _ _ (hsd _ _ h) | exact hsd _ _ (hsd _ _ h))
    | transferTimeout t =>
      dsimp only
      unfold State.transferTimeout
      try dsimp only
      repeat' split
      all_goals (first | exact h | exact hsd _ _ h | exact hel _ _ h | exact hbl _ h | exact hgp _ _ h | exact hgv _ _ h | exact hpv _ _ _ h | exact hpv _ _ _ (hsd _ _ h) | exact hsd _ _ (hsd _ _ h))
    | onError =>
      dsimp only
      unfold State.onError
      try dsimp only
      repeat' split
      all_goals (first | exact h | exact hsd _ _ h | exact hel _ _ h | exact hbl _ h | exact hgp _ _ h | exact hgv _ _ h | exact hpv _ _ _ h | exact hpv _ _ _ (hsd _ _ h) | exact hsd _ _ (hsd _ _ h))
    | shutdown => exact absurd rfl hne

theorem keeps_run {s : State} {b sn : Bool} (h : Keeps b sn s) (f : Bool) (es : List Ev) (hne : Ev.shutdown ∉ es) :
    Keeps b sn (run f s es) := by
  induction es generalizing s with
  | nil => exact h
  | cons e es ih =>
    refine ih (keeps_step h f e ?_) (fun hx => hne (List.mem_cons_of_mem _ hx))
    intro he
    exact hne (by rw [he]; exact List.mem_cons_self ..)

theorem keeps_init (can conf snap : Bool) (term : Nat) : Keeps can snap (State.init can conf snap term) := by
  unfold Keeps State.init State.stepDown State.stopOld State.startElec
  cases conf <;> simp [Role.active]

/-! ### After shutdown -/

/-- Destroyed timers are not started; a node that is shutting down has destroyed them. -/
def Off (s : State) : Prop :=
  (s.role = .shutting → s.dead = true) ∧ (s.dead = true → s.elec = false ∧ s.vote = false ∧ s.down = false ∧ s.snap = false)

theorem off_step {s : State} (h : Off s) (f : Bool) (e : Ev) :
    Off (s.step f e) := by
  have hsd : ∀ (s : State) t, Off s → Off (s.stepDown t) := by
    intro s t h
    unfold Off at *
    unfold State.stepDown State.stopOld State.startElec
    grind
  have hel : ∀ (s : State) a, Off s → Off (s.electSelf a) := by
    intro s a h
    unfold Off at *
    unfold State.electSelf State.startVote
    grind
  have hbl : ∀ (s : State), Off s → Off (s.becomeLeader f) := by
    intro s h
    unfold Off at *
    unfold State.becomeLeader State.startDown
    grind
  have hgp : ∀ (s : State) a, Off s → Off (s.grantPre a) := by
    intro s a h
    unfold State.grantPre
    repeat' split
    · exact hel _ _ h
    · exact h
    · exact h
  have hgv : ∀ (s : State) a, Off s → Off (s.grantVote f a) := by
    intro s a h
    unfold State.grantVote
    repeat' split
    · exact hbl _ h
    · exact h
    · exact h
  have hpv : ∀ (s : State) a g, Off s → Off (s.preVote a g) := by
    intro s a g h
    unfold State.preVote
    repeat' split
    all_goals exact h
  unfold State.step
  split
  · exact h
  · cases e with
    | bootElect a =>
      dsimp only
      repeat' split
      all_goals (first | exact h | exact hsd _ _ h | exact hel _ _ h | exact hbl _ h | exact hgp _ _ h | exact hgv _ _ h | exact hpv _ _ _ h | exact hpv _ _ _ (hsd _ _ h) | exact hsd _ _ (hsd _ _ h) | (unfold Off at *; grind))
    | electionTimeout a =>
      dsimp only
      unfold State.electionTimeout
      try dsimp only
      repeat' split
      all_goals (first | exact h | exact hsd _ _ h | exact hel _ _ h | exact hbl _ h | exact hgp _ _ h | exact hgv _ _ h | exact hpv _ _ _ h | exact hpv _ _ _ (hsd _ _ h) | exact hsd _ _ (hsd _ _ h) | (unfold Off at *; grind))
    | resumePre i a =>
      dsimp only
      unfold State.resumePre
      try dsimp only
      repeat' split
      all_goals (first | exact h | exact hsd _ _ h | exact hel _ _ h | exact hbl _ h | exact hgp _ _ h | exact hgv _ _ h | exact hpv _ _ _ h | exact hpv _ _ _ (hsd _ _ h) | exact hsd _ _ (hsd _ _ h) | (unfold Off at *; grind))
    | preAnswer i r c a =>
      dsimp only
      unfold State.preAnswer
      try dsimp only
      repeat' split
      all_goals (first | exact h | exact hsd _ _ h | exact hel _ _ h | exact hbl _ h | exact hgp _ _ h | exact hgv _ _ h | exact hpv _ _ _ h | exact hpv _ _ _ (hsd _ _ h) | exact hsd _ _ (hsd _ _ h) | (unfold Off at *; grind))
    | resumeElect i a =>
      dsimp only
      unfold State.resumeElect
      try dsimp only
      repeat' split
      all_goals (first | exact h | exact hsd _ _ h | exact hel _ _ h | exact hbl _ h | exact hgp _ _ h | exact hgv _ _ h | exact hpv _ _ _ h | exact hpv _ _ _ (hsd _ _ h) | exact hsd _ _ (hsd _ _ h) | (unfold Off at *; grind))
    | voteAnswer i r c a =>
      dsimp only
      unfold State.voteAnswer
      try dsimp only
      repeat' split
      all_goals (first | exact h | exact hsd _ _ h | exact hel _ _ h | exact hbl _ h | exact hgp _ _ h | exact hgv _ _ h | exact hpv _ _ _ h | exact hpv _ _ _ (hsd _ _ h) | exact hsd _ _ (hsd _ _ h) | (unfold Off at *; grind))
    | grantFire i a =>
      dsimp only
      unfold State.grantFire
      try dsimp only
      repeat' split
      all_goals (first | exact h | exact hsd _ _ h | exact hel _ _ h | exact hbl _ h | exact hgp _ _ h | exact hgv _ _ h | exact hpv _ _ _ h | exact hpv _ _ _ (hsd _ _ h) | exact hsd _ _ (hsd _ _ h) | (unfold Off at *; grind))
    | voteTimeout b a =>
      dsimp only
      unfold State.voteTimeout
      try dsimp only
      repeat' split
      all_goals (first | exact h | exact hsd _ _ h | exact hel _ _ h | exact hbl _ h | exact hgp _ _ h | exact hgv _ _ h | exact hpv _ _ _ h | exact hpv _ _ _ (hsd _ _ h) | exact hsd _ _ (hsd _ _ h) | (unfold Off at *; grind))
    | timeoutNow t a =>
      dsimp only
      unfold State.timeoutNow
      try dsimp only
      repeat' split
      all_goals (first | exact h | exact hsd _ _ h | exact hel _ _ h | exact hbl _ h | exact hgp _ _ h | exact hgv _ _ h | exact hpv _ _ _ h | exact hpv _ _ _ (hsd _ _ h) | exact hsd _ _ (hsd _ _ h) | (unfold Off at *; grind))
    | heard t l c =>
      dsimp only
      unfold State.heard State.checkStepDown
      try dsimp only
      repeat' split
      all_goals (first | exact h | exact hsd _ _ h | exact hel _ _ h | exact hbl _ h | exact hgp _ _ h | exact hgv _ _ h | exact hpv _ _ _ h | exact hpv _ _ _ (hsd _ _ h) | exact hsd _ _ (hsd _ _ h) | (unfold Off at *; grind))
    | stepDownTo t =>
      dsimp only
      repeat' split
      all_goals (first | exact h | exact hsd _ _ h | exact hel _ _ h | exact hbl _ h | exact hgp _ _ h | exact hgv _ _ h | exact hpv _ _ _ h | exact hpv _ _ _ (hsd _ _ h) | exact hsd _ _ (hsd _ _ h) | (unfold Off at *; grind))
    | resetPeers =>
      dsimp only
      unfold State.resetPeers
      try dsimp only
      repeat' split
      all_goals (first | exact h | exact hsd _ _ h | exact hel _ _ h | exact hbl _ h | exact hgp _ _ h | exact hgv _ _ h | exact hpv _ _ _ h | exact hpv _ _ _ (hsd _ _ h) | exact hsd _ _ (hsd _ _ h) | (unfold Off at *; grind))
    | voteApi =>
      dsimp only
      unfold State.voteApi
      try dsimp only
      repeat' split
      all_goals (first | exact h | exact hsd _ _ h | exact hel _ _ h | exact hbl _ h | exact hgp _ _ h | exact hgv _ _ h | exact hpv _ _ _ h | exact hpv _ _ _ (hsd _ _ h) | exact hsd _ _ (hsd _ _ h) | (unfold Off at *; grind))
    | transfer =>
      dsimp only
      unfold State.transfer
      try dsimp only
      repeat' split
      all_goals (first | exact h | exact hsd _ _ h | exact hel _ _ h | exact hbl _ h | exact hgp _ _ h | exact hgv _ _ h | exact hpv _ _ _ h | exact hpv _ _ _ (hsd _ _ h) | exact hsd _ _ (hsd _ _ h) | (unfold Off at *; grind))
    | transferTimeout t =>
      dsimp only
      unfold State.transferTimeout
      try dsimp only
      repeat' split
      all_goals (first | exact h | exact hsd _ _ h | exact hel _ _ h | exact hbl _ h | exact hgp _ _ h | exact hgv _ _ h | exact hpv _ _ _ h | exact hpv _ _ _ (hsd _ _ h) | exact hsd _ _ (hsd _ _ h) | (unfold Off at *; grind))
    | onError =>
      dsimp only
      unfold State.onError
      dsimp only
      have h1 : Off (if s.role.active then s.stepDown s.term else s) := by
        split
        · exact hsd _ _ h
        · exact h
      generalize (if s.role.active then s.stepDown s.term else s) = s1 at h1 ⊢
      replace h := h1
      repeat' split
      all_goals (first | exact h | exact hsd _ _ h | exact hel _ _ h | exact hbl _ h | exact hgp _ _ h | exact hgv _ _ h | exact hpv _ _ _ h | exact hpv _ _ _ (hsd _ _ h) | exact hsd _ _ (hsd _ _ h) | (unfold Off at *; grind))
    | shutdown =>
      dsimp only
      unfold State.shutdown
      dsimp only
      split
      · exact h
      · exact ⟨fun _ => rfl, fun _ => ⟨rfl, rfl, rfl, rfl⟩⟩

theorem off_run {s : State} (h : Off s) (f : Bool) (es : List Ev) : Off (run f s es) := by
  induction es generalizing s with
  | nil => exact h
  | cons e es ih => exact ih (off_step h f e)

theorem off_init (can conf snap : Bool) (term : Nat) : Off (State.init can conf snap term) := by
  unfold Off State.init State.stepDown State.stopOld State.startElec
  cases conf <;> simp [Role.active]

/-- The timers are destroyed. -/
def Gone (s : State) : Prop := s.dead = true

theorem gone_step {s : State} (h : Gone s) (f : Bool) (e : Ev) :
    Gone (s.step f e) := by
  have hsd : ∀ (s : State) t, Gone s → Gone (s.stepDown t) := by
    intro s t h
    unfold Gone at *
    unfold State.stepDown State.stopOld State.startElec
    grind
  have hel : ∀ (s : State) a, Gone s → Gone (s.electSelf a) := by
    intro s a h
    unfold Gone at *
    unfold State.electSelf State.startVote
    grind
  have hbl : ∀ (s : State), Gone s → Gone (s.becomeLeader f) := by
    intro s h
    unfold Gone at *
    unfold State.becomeLeader State.startDown
    grind
  have hgp : ∀ (s : State) a, Gone s → Gone (s.grantPre a) := by
    intro s a h
    unfold State.grantPre
    repeat' split
    · exact hel _ _ h
    · exact h
    · exact h
  have hgv : ∀ (s : State) a, Gone s → Gone (s.grantVote f a) := by
    intro s a h
    unfold State.grantVote
    repeat' split
    · exact hbl _ h
    · exact h
    · exact h
  have hpv : ∀ (s : State) a g, Gone s → Gone (s.preVote a g) := by
    intro s a g h
    unfold State.preVote
    repeat' split
    all_goals exact h
  unfold State.step
  split
  · exact h
  · cases e with
    | bootElect a =>
      dsimp only
      repeat' split
      all_goals (first | exact h | exact hsd _ _ h | exact hel _ _ h | exact hbl _ h | exact hgp _ _ h | exact hgv _ _ h | exact hpv _ _ _ h | exact hpv _ _ _ (hsd _ _ h) | exact hsd _ _ (hsd _ _ h) | (unfold Gone at *; grind))
    | electionTimeout a =>
      dsimp only
      unfold State.electionTimeout
      try dsimp only
      repeat' split
      all_goals (first | exact h | exact hsd _ _ h | exact hel _ _ h | exact hbl _ h | exact hgp _ _ h | exact hgv _ _ h | exact hpv _ _ _ h | exact hpv _ _ _ (hsd _ _ h) | exact hsd _ _ (hsd _ _ h) | (unfold Gone at *; grind))
    | resumePre i a =>
      dsimp only
      unfold State.resumePre
      try dsimp only
      repeat' split
      all_goals (first | exact h | exact hsd _ _ h | exact hel _ _ h | exact hbl _ h | exact hgp _ _ h | exact hgv _ _ h | exact hpv _ _ _ h | exact hpv _ _ _ (hsd _ _ h) | exact hsd _ _ (hsd _ _ h) | (unfold Gone at *; grind))
    | preAnswer i r c a =>
      dsimp only
      unfold State.preAnswer
      try dsimp only
      repeat' split
      all_goals (first | exact h | exact hsd _ _ h | exact hel _ _ h | exact hbl _ h | exact hgp _ _ h | exact hgv _ _ h | exact hpv _ _ _ h | exact hpv _ _ _ (hsd _ _ h) | exact hsd _ _ (hsd _ _ h) | (unfold Gone at *; grind))
    | resumeElect i a =>
      dsimp only
      unfold State.resumeElect
      try dsimp only
      repeat' split
      all_goals (first | exact h | exact hsd _ _ h | exact hel _ _ h | exact hbl _ h | exact hgp _ _ h | exact hgv _ _ h | exact hpv _ _ _ h | exact hpv _ _ _ (hsd _ _ h) | exact hsd _ _ (hsd _ _ h) | (unfold Gone at *; grind))
    | voteAnswer i r c a =>
      dsimp only
      unfold State.voteAnswer
      try dsimp only
      repeat' split
      all_goals (first | exact h | exact hsd _ _ h | exact hel _ _ h | exact hbl _ h | exact hgp _ _ h | exact hgv _ _ h | exact hpv _ _ _ h | exact hpv _ _ _ (hsd _ _ h) | exact hsd _ _ (hsd _ _ h) | (unfold Gone at *; grind))
    | grantFire i a =>
      dsimp only
      unfold State.grantFire
      try dsimp only
      repeat' split
      all_goals (first | exact h | exact hsd _ _ h | exact hel _ _ h | exact hbl _ h | exact hgp _ _ h | exact hgv _ _ h | exact hpv _ _ _ h | exact hpv _ _ _ (hsd _ _ h) | exact hsd _ _ (hsd _ _ h) | (unfold Gone at *; grind))
    | voteTimeout b a =>
      dsimp only
      unfold State.voteTimeout
      try dsimp only
      repeat' split
      all_goals (first | exact h | exact hsd _ _ h | exact hel _ _ h | exact hbl _ h | exact hgp _ _ h | exact hgv _ _ h | exact hpv _ _ _ h | exact hpv _ _ _ (hsd _ _ h) | exact hsd _ _ (hsd _ _ h) | (unfold Gone at *; grind))
    | timeoutNow t a =>
      dsimp only
      unfold State.timeoutNow
      try dsimp only
      repeat' split
      all_goals (first | exact h | exact hsd _ _ h | exact hel _ _ h | exact hbl _ h | exact hgp _ _ h | exact hgv _ _ h | exact hpv _ _ _ h | exact hpv _ _ _ (hsd _ _ h) | exact hsd _ _ (hsd _ _ h) | (unfold Gone at *; grind))
    | heard t l c =>
      dsimp only
      unfold State.heard State.checkStepDown
      try dsimp only
      repeat' split
      all_goals (first | exact h | exact hsd _ _ h | exact hel _ _ h | exact hbl _ h | exact hgp _ _ h | exact hgv _ _ h | exact hpv _ _ _ h | exact hpv _ _ _ (hsd _ _ h) | exact hsd _ _ (hsd _ _ h) | (unfold Gone at *; grind))
    | stepDownTo t =>
      dsimp only
      repeat' split
      all_goals (first | exact h | exact hsd _ _ h | exact hel _ _ h | exact hbl _ h | exact hgp _ _ h | exact hgv _ _ h | exact hpv _ _ _ h | exact hpv _ _ _ (hsd _ _ h) | exact hsd _ _ (hsd _ _ h) | (unfold Gone at *; grind))
    | resetPeers =>
      dsimp only
      unfold State.resetPeers
      try dsimp only
      repeat' split
      all_goals (first | exact h | exact hsd _ _ h | exact hel _ _ h | exact hbl _ h | exact hgp _ _ h | exact hgv _ _ h | exact hpv _ _ _ h | exact hpv _ _ _ (hsd _ _ h) | exact hsd _ _ (hsd _ _ h) | (unfold Gone at *; grind))
    | voteApi =>
      dsimp only
      unfold State.voteApi
      try dsimp only
      repeat' split
      all_goals (first | exact h | exact hsd _ _ h | exact hel _ _ h | exact hbl _ h | exact hgp _ _ h | exact hgv _ _ h | exact hpv _ _ _ h | exact hpv _ _ _ (hsd _ _ h) | exact hsd _ _ (hsd _ _ h) | (unfold Gone at *; grind))
    | transfer =>
      dsimp only
      unfold State.transfer
      try dsimp only
      repeat' split
      all_goals (first | exact h | exact hsd _ _ h | exact hel _ _ h | exact hbl _ h | exact hgp _ _ h | exact hgv _ _ h | exact hpv _ _ _ h | exact hpv _ _ _ (hsd _ _ h) | exact hsd _ _ (hsd _ _ h) | (unfold Gone at *; grind))
    | transferTimeout t =>
      dsimp only
      unfold State.transferTimeout
      try dsimp only
      repeat' split
      all_goals (first | exact h | exact hsd _ _ h | exact hel _ _ h | exact hbl _ h | exact hgp _ _ h | exact hgv _ _ h | exact hpv _ _ _ h | exact hpv _ _ _ (hsd _ _ h) | exact hsd _ _ (hsd _ _ h) | (unfold Gone at *; grind))
    | onError =>
      dsimp only
      unfold State.onError
      dsimp only
      have h1 : Gone (if s.role.active then s.stepDown s.term else s) := by
        split
        · exact hsd _ _ h
        · exact h
      generalize (if s.role.active then s.stepDown s.term else s) = s1 at h1 ⊢
      replace h := h1
      repeat' split
      all_goals (first | exact h | exact hsd _ _ h | exact hel _ _ h | exact hbl _ h | exact hgp _ _ h | exact hgv _ _ h | exact hpv _ _ _ h | exact hpv _ _ _ (hsd _ _ h) | exact hsd _ _ (hsd _ _ h) | (unfold Gone at *; grind))
    | shutdown =>
      dsimp only
      unfold State.shutdown
      dsimp only
      split
      · exact h
      · exact rfl

theorem gone_run {s : State} (h : Gone s) (f : Bool) (es : List Ev) : Gone (run f s es) := by
  induction es generalizing s with
  | nil => exact h
  | cons e es ih => exact ih (gone_step h f e)

/-! ### Periods -/

/-- What a chain of vote(ms) and reset_election_timeout_ms(ms) keeps for a node that is no witness, or a witness that is not
allowed to lead; `M` is the sum of the two options at init. -/
def resets (wl : Bool) : Times → List Int → Times
  | m, [] => m
  | m, x :: xs => resets wl (m.reset wl x).1 xs

theorem reset_sum (wl : Bool) (m : Times) (x : Int) :
    (m.reset wl x).1.et + (m.reset wl x).1.drift = m.et + m.drift := by
  unfold Times.reset Times.unsafeReset
  dsimp only
  split
  · rfl
  · split <;> dsimp only <;> omega

theorem reset_voteT (wl : Bool) (m : Times) (x : Int) :
    (m.reset wl x).1.voteT = m.voteT ∧ (m.reset wl x).1.downT = m.downT ∧ (m.reset wl x).1.witness = m.witness := by
  unfold Times.reset Times.unsafeReset
  dsimp only
  split
  · exact ⟨rfl, rfl, rfl⟩
  · split <;> exact ⟨rfl, rfl, rfl⟩

theorem resets_sum (wl : Bool) (m : Times) (xs : List Int) :
    (resets wl m xs).et + (resets wl m xs).drift = m.et + m.drift ∧ (resets wl m xs).voteT = m.voteT ∧
    (resets wl m xs).downT = m.downT ∧ (resets wl m xs).witness = m.witness := by
  induction xs generalizing m with
  | nil => exact ⟨rfl, rfl, rfl, rfl⟩
  | cons x xs ih =>
    have h := ih (m.reset wl x).1
    have h1 := reset_sum wl m x
    have h2 := reset_voteT wl m x
    exact ⟨h.1.trans h1, h.2.1.trans h2.1, h.2.2.1.trans h2.2.1, h.2.2.2.trans h2.2.2⟩

/-- The leases and the election timer follow the options. -/
def Follows (wl : Bool) (m : Times) : Prop :=
  (m.witness = false → m.elecT = m.et ∧ m.leaderT = m.et ∧ m.followT = m.et) ∧
  (m.witness = true → (m.followT = m.et ∨ m.followT = m.et * 2) ∧ (wl = true → m.elecT = m.et * 2)) ∧
  m.followD = m.drift

theorem follows_reset (wl : Bool) (m : Times) (x : Int) (h : Follows wl m) : Follows wl (m.reset wl x).1 := by
  unfold Follows at *
  unfold Times.reset Times.unsafeReset
  dsimp only
  split
  · exact h
  · cases hw : m.witness <;> cases wl <;> simp [hw]

theorem follows_resets (wl : Bool) (m : Times) (xs : List Int) (h : Follows wl m) : Follows wl (resets wl m xs) := by
  induction xs generalizing m with
  | nil => exact h
  | cons x xs ih => exact ih _ (follows_reset wl m x h)

theorem follows_init (w wl : Bool) (et drift : Int) : Follows wl (Times.init w wl et drift) := by
  unfold Follows Times.init
  cases w <;> cases wl <;> simp

end Braft.Timers
