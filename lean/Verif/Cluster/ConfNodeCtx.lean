import Verif.Node.ConfCtxRepl
/-
What the calls of ConfigurationCtx (Verif/Node/ConfCtx.lean) do as seen by the log: nothing, one entry that may follow
the configuration in force, or the leader steps down.
-/
set_option linter.unusedSectionVars false
set_option linter.unusedSimpArgs false
set_option linter.unusedVariables false

namespace Braft.CN
open Braft.ConfCtx
variable {P : Type} [DecidableEq P]

/-- No entry of a change is under way. -/
def Idle (x : State P) : Prop := x.stage = .none ∨ x.stage = .catching

/-- The entry `e` may follow the configuration `conf`, `old`. -/
def Follows (conf old : List P) (e : Entry P) : Prop :=
  (old = [] ∧ ((e.olds = conf ∧ conf ≠ []) ∨ (e.olds = [] ∧ differ e.conf conf = 1))) ∨
  (old ≠ [] ∧ e.olds = [] ∧ e.conf = conf)

/-- The outcome of a call: `pd`, `cm` are the closures left and the entries reported, without those of the call. `G`:
the call was made because the entry under way has committed. -/
inductive Out (G : Prop) (x : State P) (pd : List (Pend P)) (cm : List (Nat × Entry P)) (x' : State P) : Prop where
  | quiet (self : x'.self = x.self) (term : x'.term = x.term) (conf : x'.conf = x.conf) (old : x'.old = x.old) (role : x'.role = x.role)
      (subs : x'.subs = x.subs) (pend : x'.pend = pd) (comm : x'.comm = cm) (stage : Idle x' → Idle x ∨ G)
  | submit (e : Entry P) (self : x'.self = x.self) (term : x'.term = x.term) (conf : x'.conf = e.conf) (old : x'.old = e.olds)
      (lead : x.role = .leader) (role : x'.role = .leader) (subs : x'.subs = (x.term, e) :: x.subs) (pend : x'.pend = pd ++ [⟨x.term, e, true⟩]) (comm : x'.comm = cm)
      (nopend : ∀ q ∈ pd, q.term < x.term) (was : Idle x ∨ G) (stage : ¬ Idle x') (ok : Follows x.conf x.old e)
  | down (self : x'.self = x.self) (term : x'.term = x.term) (conf : x'.conf = x.conf) (old : x'.old = x.old)
      (lead : x.role = .leader) (role : x'.role = .follower) (subs : x'.subs = x.subs) (pend : x'.pend = pd) (comm : x'.comm = cm)

/-- `x` and `y` agree where `Out` looks. -/
structure Core (x y : State P) : Prop where
  self : x.self = y.self
  term : x.term = y.term
  conf : x.conf = y.conf
  old : x.old = y.old
  role : x.role = y.role
  subs : x.subs = y.subs
  stage : Idle y → Idle x

theorem Out.congr {G : Prop} {x y : State P} {pd : List (Pend P)} {cm : List (Nat × Entry P)} {x' : State P} (h : Out G y pd cm x')
    (hc : Core x y) : Out G x pd cm x' := by
  obtain ⟨h1, h2, h3, h4, h5, h6, h7⟩ := hc
  cases h with
  | quiet a1 a2 a3 a4 a5 a6 a7 a8 a9 =>
    exact .quiet (a1.trans h1.symm) (a2.trans h2.symm) (a3.trans h3.symm) (a4.trans h4.symm) (a5.trans h5.symm) (a6.trans h6.symm) a7 a8
      (fun h => (a9 h).imp h7 id)
  | submit e a1 a2 a3 a4 a5 a6 a7 a8 a9 a10 a11 a12 a13 =>
    exact .submit e (a1.trans h1.symm) (a2.trans h2.symm) a3 a4 (h5.trans a5) a6 (by rw [h2, h6]; exact a7) (by rw [h2]; exact a8) a9
      (by rw [h2]; exact a10) (a11.imp h7 id) a12 (by rw [h3, h4]; exact a13)
  | down a1 a2 a3 a4 a5 a6 a7 a8 a9 =>
    exact .down (a1.trans h1.symm) (a2.trans h2.symm) (a3.trans h3.symm) (a4.trans h4.symm) (h5.trans a5) a6 (a7.trans h6.symm) a8 a9

/-- What else holds of the stages. -/
structure Ex (x : State P) : Prop where
  joint : x.stage = .joint → x.old ≠ []
  catching : x.stage = .catching → sameSet x.conf x.new = false

theorem differ_pos {a b : List P} (h : sameSet b a = false) : 1 ≤ differ a b := by
  unfold differ
  apply Decidable.byContradiction
  intro hx
  have h1 : (minus a b).length = 0 := by omega
  have h2 : (minus b a).length = 0 := by omega
  rw [List.length_eq_zero_iff] at h1 h2
  have : sameSet b a = true := by
    unfold sameSet
    simp only [Bool.and_eq_true, decide_eq_true_eq]
    refine ⟨fun p hp => ?_, fun p hp => ?_⟩
    · apply Decidable.byContradiction; intro hn
      have := mem_minus.mpr ⟨hp, hn⟩
      rw [h2] at this; cases this
    · apply Decidable.byContradiction; intro hn
      have := mem_minus.mpr ⟨hp, hn⟩
      rw [h1] at this; cases this
  rw [this] at h; cases h

/-- A change that waits for peers, or is about to. -/
structure Ct (x : State P) : Prop where
  stage : x.stage = .catching
  role : x.role = .leader
  noPend : NoPend x
  old : x.old = []
  olds : x.olds = x.conf
  nch : x.nchanges = differ x.new x.olds
  ne : x.conf ≠ []
  same : sameSet x.conf x.new = false

theorem nextStage_ct {G : Prop} {x : State P} (h : Ct x) : Out G x x.pend x.comm (x.nextStage true) ∧ Ex (x.nextStage true) := by
  obtain ⟨h1, h2, h3, h4, h5, h6, h7, h8⟩ := h
  have hp := differ_pos h8
  rw [← h5, ← h6] at hp
  unfold State.nextStage
  dsimp only [State.check]
  rw [h1]
  dsimp only
  by_cases hn : x.nchanges > 1
  · rw [if_pos hn]
    refine ⟨.submit ⟨x.new, some x.olds⟩ rfl rfl rfl rfl h2 h2 rfl rfl rfl h3 (Or.inl (Or.inr h1)) ?_ ?_, ?_, ?_⟩
    · rintro (h | h) <;> cases h
    · exact Or.inl ⟨h4, Or.inl ⟨h5, h7⟩⟩
    · intro _; show x.olds ≠ []; rw [h5]; exact h7
    · intro h; cases h
  · rw [if_neg hn]
    refine ⟨.submit ⟨x.new, none⟩ rfl rfl rfl rfl h2 h2 rfl rfl rfl h3 (Or.inl (Or.inr h1)) ?_ ?_, ?_, ?_⟩
    · rintro (h | h) <;> cases h
    · refine Or.inl ⟨h4, Or.inr ⟨rfl, ?_⟩⟩
      show differ x.new x.conf = 1
      rw [← h5]; omega
    · intro h; cases h
    · intro h; cases h

theorem Ex.none {x : State P} (h : x.stage = .none) : Ex x :=
  ⟨fun h' => (by rw [h] at h'; cases h'), fun h' => (by rw [h] at h'; cases h')⟩

theorem reset_fields (x : State P) (st : Option Code) :
    (x.reset st).self = x.self ∧ (x.reset st).term = x.term ∧ (x.reset st).conf = x.conf ∧ (x.reset st).old = x.old ∧
    (x.reset st).role = x.role ∧ (x.reset st).subs = x.subs ∧ (x.reset st).pend = x.pend ∧ (x.reset st).comm = x.comm ∧
    (x.reset st).stage = .none := by
  unfold State.reset
  by_cases h : x.stage = .none
  · rw [if_pos h]; exact ⟨rfl, rfl, rfl, rfl, rfl, rfl, rfl, rfl, h⟩
  · rw [if_neg h]
    dsimp only [State.stopRepl]
    split <;> exact ⟨rfl, rfl, rfl, rfl, rfl, rfl, rfl, rfl, rfl⟩

theorem ctxCaughtUp_ct {G : Prop} {x : State P} (h : Ct x) (v : Nat) (p : P) (succ : Bool) :
    Out G x x.pend x.comm (x.ctxCaughtUp v p succ true) ∧ Ex (x.ctxCaughtUp v p succ true) := by
  unfold State.ctxCaughtUp
  split
  · exact ⟨.quiet rfl rfl rfl rfl rfl rfl rfl rfl Or.inl, fun h' => (by rw [h.stage] at h'; cases h'), fun _ => h.same⟩
  · dsimp only [State.check]
    cases succ with
    | false =>
      rw [if_neg (by decide)]
      obtain ⟨e1, e2, e3, e4, e5, e6, e7, e8, e9⟩ := reset_fields ({ x with bad := x.bad || !decide (x.stage = .catching) } : State P) (some .ecatchup)
      exact ⟨.quiet e1 e2 e3 e4 e5 e6 e7 e8 (fun _ => Or.inl (Or.inr h.stage)), Ex.none e9⟩
    | true =>
      rw [if_pos rfl]
      split
      · obtain ⟨r1, r2⟩ := nextStage_ct (G := G) (x := { x with bad := x.bad || !decide (x.stage = .catching), adding := x.adding.filter (fun q => decide (q ≠ p)) })
          ⟨h.stage, h.role, h.noPend, h.old, h.olds, h.nch, h.ne, h.same⟩
        exact ⟨r1.congr ⟨rfl, rfl, rfl, rfl, rfl, rfl, id⟩, r2⟩
      · exact ⟨.quiet rfl rfl rfl rfl rfl rfl rfl rfl Or.inl, fun h' => (by rw [h.stage] at h'; cases h'), fun _ => h.same⟩

theorem startLoop_ct {G : Prop} (addOk : P → Bool) (ps : List P) : ∀ {x : State P}, Ct x →
    Out G x x.pend x.comm (x.startLoop addOk ps) ∧ Ex (x.startLoop addOk ps) := by
  induction ps with
  | nil =>
    intro x h
    exact ⟨.quiet rfl rfl rfl rfl rfl rfl rfl rfl Or.inl, fun h' => (by rw [State.startLoop, h.stage] at h'; cases h'), fun _ => h.same⟩
  | cons p ps ih =>
    intro x h
    rw [State.startLoop]
    split
    · obtain ⟨r1, r2⟩ := ih (x := { x with repl := if p ∈ x.repl then x.repl else p :: x.repl, waits := x.waits ++ [(p, x.term, x.version)] })
        ⟨h.stage, h.role, h.noPend, h.old, h.olds, h.nch, h.ne, h.same⟩
      exact ⟨r1.congr ⟨rfl, rfl, rfl, rfl, rfl, rfl, id⟩, r2⟩
    · exact ctxCaughtUp_ct h x.version p false

theorem Inv.lead {x : State P} (h : Inv x) (hr : x.role = .leader) : Lead x := by
  have := h.phase
  unfold Phase at this
  rw [hr] at this; exact this

theorem change_out {x : State P} (hi : Inv x) (hm : Mem x) (hex : Ex x) (newc : List P) (addOk : P → Bool) :
    Out False x x.pend x.comm (x.change newc addOk true) ∧ Ex (x.change newc addOk true) := by
  unfold State.change
  dsimp only
  have hq : ∀ c : Code, Out False x x.pend x.comm (({ x with reqs := x.reqs ++ [newc] } : State P).answer x.reqs.length c) ∧
      Ex (({ x with reqs := x.reqs ++ [newc] } : State P).answer x.reqs.length c) :=
    fun c => ⟨.quiet rfl rfl rfl rfl rfl rfl rfl rfl Or.inl, hex.1, hex.2⟩
  by_cases h1 : x.role ≠ .leader
  · rw [if_pos h1]; exact hq _
  rw [if_neg h1]
  have hr : x.role = .leader := Decidable.not_not.mp h1
  by_cases h2 : x.busy = true
  · rw [if_pos h2]; exact hq _
  rw [if_neg h2]
  have hs : x.stage = .none := by
    unfold State.busy at h2
    simpa using h2
  by_cases h3 : sameSet x.conf newc = true
  · rw [if_pos h3]; exact hq _
  rw [if_neg h3]
  have hl := CN.Inv.lead hi hr
  unfold Lead at hl
  rw [hs] at hl
  dsimp only at hl
  have hne : x.conf ≠ [] := fun he => by
    have := hm.idle (Or.inl hr) (Or.inl hs)
    rw [he] at this; cases this
  have hsame : sameSet x.conf newc = false := by simpa using h3
  unfold State.start
  dsimp only [State.check]
  split
  · obtain ⟨r1, r2⟩ := nextStage_ct (G := False) (x := { x with
      reqs := x.reqs ++ [newc], bad := (x.bad || !!({ x with reqs := x.reqs ++ [newc] } : State P).busy) || !x.done.isNone,
      done := some x.reqs.length, stage := .catching, olds := x.conf, new := newc,
      nchanges := (minus newc x.conf).length + (minus x.conf newc).length })
      ⟨rfl, hr, hl.1, hl.2.1.old, rfl, rfl, hne, hsame⟩
    exact ⟨r1.congr ⟨rfl, rfl, rfl, rfl, rfl, rfl, fun _ => Or.inl hs⟩, r2⟩
  · obtain ⟨r1, r2⟩ := startLoop_ct (G := False) addOk (minus newc x.conf) (x := { x with
      reqs := x.reqs ++ [newc], bad := (x.bad || !!({ x with reqs := x.reqs ++ [newc] } : State P).busy) || !x.done.isNone,
      done := some x.reqs.length, stage := .catching, olds := x.conf, new := newc,
      nchanges := (minus newc x.conf).length + (minus x.conf newc).length, adding := minus newc x.conf })
      ⟨rfl, hr, hl.1, hl.2.1.old, rfl, rfl, hne, hsame⟩
    exact ⟨r1.congr ⟨rfl, rfl, rfl, rfl, rfl, rfl, fun _ => Or.inl hs⟩, r2⟩

theorem caughtUp_out {x : State P} (hi : Inv x) (hm : Mem x) (hex : Ex x) (k : Nat) (c : Caught) :
    Out False x x.pend x.comm (x.caughtUp k c true) ∧ Ex (x.caughtUp k c true) := by
  have hq : ∀ w, Out False x x.pend x.comm ({ x with waits := w } : State P) ∧ Ex ({ x with waits := w } : State P) :=
    fun c => ⟨.quiet rfl rfl rfl rfl rfl rfl rfl rfl Or.inl, hex.1, hex.2⟩
  unfold State.caughtUp
  cases hk : x.waits[k]? with
  | none => exact ⟨.quiet rfl rfl rfl rfl rfl rfl rfl rfl Or.inl, hex⟩
  | some w =>
    obtain ⟨p, t, v⟩ := w
    dsimp only
    have hmem := List.mem_of_getElem? hk
    split
    · exact hq _
    · rename_i hc
      have hr : x.role = .leader := by
        apply Decidable.byContradiction; intro hx; exact hc (Or.inl hx)
      have key : ∀ b : Bool, Out False x x.pend x.comm (({ x with waits := x.waits.eraseIdx k } : State P).ctxCaughtUp v p b true) ∧
          Ex (({ x with waits := x.waits.eraseIdx k } : State P).ctxCaughtUp v p b true) := by
        intro b
        by_cases hv : v = x.version
        · subst hv
          obtain ⟨hcat, _⟩ := hi.catching hr hmem rfl
          have hne : x.conf ≠ [] := fun he => by
            have := hm.idle (Or.inl hr) (Or.inr hcat.stage)
            rw [he] at this; cases this
          obtain ⟨r1, r2⟩ := ctxCaughtUp_ct (G := False) (x := { x with waits := x.waits.eraseIdx k })
            ⟨hcat.stage, hr, hcat.noPend, hcat.settled.old, hcat.olds, hcat.nch, hne, hex.catching hcat.stage⟩ x.version p b
          exact ⟨r1.congr ⟨rfl, rfl, rfl, rfl, rfl, rfl, id⟩, r2⟩
        · unfold State.ctxCaughtUp
          rw [if_pos hv]
          exact hq _
      cases c with
      | ok => exact key true
      | fail => exact key false
      | retry => exact hq _

theorem entryDone_out {x : State P} (hi : Inv x) (hex : Ex x) (k : Nat) (ok : Bool) {q : Pend P} (hk : x.pend[k]? = some q) (hin : q.inLog = true) :
    Out (ok = true ∧ q.term = x.term ∧ x.role = .leader) x (x.pend.eraseIdx k) (if ok then (q.term, q.entry) :: x.comm else x.comm) (x.entryDone k ok true) ∧
    Ex (x.entryDone k ok true) := by
  unfold State.entryDone
  rw [hk]
  dsimp only
  have hmem := List.mem_of_getElem? hk
  rw [hin, Bool.and_true]
  cases ok with
  | false =>
    rw [if_neg (by decide), if_neg (by decide)]
    exact ⟨.quiet rfl rfl rfl rfl rfl rfl rfl rfl Or.inl, hex.1, hex.2⟩
  | true =>
    rw [if_pos rfl, if_pos rfl]
    split
    · rename_i hl
      obtain ⟨hrole, hterm⟩ := hl
      have hlead : Lead x := by
        have := hi.phase
        unfold Phase at this
        rcases hrole with hr | hr <;> rw [hr] at this <;> exact this
      have hnp : ∀ {e : Entry P}, OnePend x e → ∀ z ∈ x.pend.eraseIdx k, z.term < x.term := by
        intro e ho z hz
        have h1 := eraseIdx_filter_one hk (decide_eq_true hterm) ho.one z hz
        have h2 := hi.base.pendLe z ((List.eraseIdx_sublist ..).subset hz)
        have h3 : z.term ≠ x.term := of_decide_eq_false h1
        omega
      unfold Lead at hlead
      unfold State.nextStage
      have hst : x.stage = .none ∨ x.stage = .catching ∨ x.stage = .joint ∨ x.stage = .stable := by
        cases x.stage <;> simp
      rcases hst with hs | hs | hs | hs <;> rw [hs] at hlead <;> dsimp only at hlead
      · have := hlead.1 q hmem; omega
      · have := hlead.2.1 q hmem; omega
      · obtain ⟨a1, a2, a3, a4, a5⟩ := hlead
        obtain ⟨e1, e2⟩ := a2.ent q hmem hterm
        dsimp only [State.check]
        rw [hs]
        dsimp only
        refine ⟨.submit ⟨x.new, none⟩ rfl rfl rfl rfl a1 a1 rfl rfl rfl (hnp a2) (Or.inr ⟨rfl, hterm, a1⟩) ?_ ?_, ?_, ?_⟩
        · rintro (h | h) <;> cases h
        · exact Or.inr ⟨hex.joint hs, rfl, (e2 hin).1.symm⟩
        · intro h; cases h
        · intro h; cases h
      · obtain ⟨a1, a2, a3, a4, a5⟩ := hlead
        dsimp only [State.check]
        rw [hs]
        dsimp only
        generalize hy : (State.reset _ _ : State P) = y
        have hf := reset_fields ({ x with pend := x.pend.eraseIdx k, comm := (q.term, q.entry) :: x.comm, bad := x.bad || !(State.busy ({ x with pend := x.pend.eraseIdx k, comm := (q.term, q.entry) :: x.comm } : State P)) } : State P) (some .ok)
        rw [hs] at hf
        rw [hy] at hf
        obtain ⟨e1, e2, e3, e4, e5, e6, e7, e8, e9⟩ := hf
        split
        · exact ⟨.quiet e1 e2 e3 e4 e5 e6 e7 e8 (fun _ => Or.inr ⟨rfl, hterm, a1⟩), Ex.none e9⟩
        · unfold State.stepDown
          have hr5 : y.role ≠ .down := by rw [e5]; show x.role ≠ .down; rw [a1]; decide
          rw [if_neg hr5]
          dsimp only
          have hz : (State.reset ({ y with role := .follower } : State P) none) = { y with role := .follower } := by
            unfold State.reset; rw [if_pos e9]
          rw [hz]
          refine ⟨.down e1 ?_ e3 e4 a1 rfl e6 e7 e8, Ex.none e9⟩
          show (if x.term > y.term then x.term else y.term) = x.term
          rw [e2]; exact if_neg (Nat.lt_irrefl _)
    · rename_i hl
      exact ⟨.quiet rfl rfl rfl rfl rfl rfl rfl rfl Or.inl, hex.1, hex.2⟩

end Braft.CN
