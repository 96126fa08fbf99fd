import Verif.Node.ConfCtxInv
/-
A leader replicates to all other members: invariant of the model of Verif/Node/ConfCtx.lean. `F` stands for the peers
for which add_replicator has failed when the node became leader.
-/
set_option linter.unusedSectionVars false
set_option linter.unusedSimpArgs false
set_option linter.unusedVariables false

namespace Braft.ConfCtx
variable {P : Type} [DecidableEq P]

/-- Everything that happens to a node, as in `Hist`, where add_replicator fails in become_leader (which ignores its
result, node.cpp:1963-1964) only for peers in `F`. Elsewhere it may fail for any peer. -/
inductive HistF (F : P → Prop) : State P → Prop where
  | init (self : P) (term : Nat) (conf old : List P) (hn : conf.Nodup) : HistF F (State.init self term conf old)
  | change {s} (h : HistF F s) (newc : List P) (hn : newc.Nodup) (addOk : P → Bool) (logOk : Bool) : HistF F (s.change newc addOk logOk)
  | addPeer {s} (h : HistF F s) (p : P) (addOk : P → Bool) (logOk : Bool) : HistF F (s.addPeer p addOk logOk)
  | removePeer {s} (h : HistF F s) (p : P) (addOk : P → Bool) (logOk : Bool) : HistF F (s.removePeer p addOk logOk)
  | caughtUp {s} (h : HistF F s) (k : Nat) (c : Caught) (logOk : Bool) : HistF F (s.caughtUp k c logOk)
  | entryDone {s} (h : HistF F s) (k : Nat) (ok logOk : Bool) : HistF F (s.entryDone k ok logOk)
  | stepDown {s} (h : HistF F s) (term : Nat) : HistF F (s.stepDown term)
  | elect {s} (h : HistF F s) : HistF F s.elect
  | becomeLeader {s} (h : HistF F s) (addOk : P → Bool) (hF : ∀ p, addOk p = false → F p) (logOk : Bool) : HistF F (s.becomeLeader addOk logOk)
  | follow {s} (h : HistF F s) (conf old : List P) (hn : conf.Nodup) : HistF F (s.follow conf old)
  | transfer {s} (h : HistF F s) (ok : Bool) : HistF F (s.transfer ok)
  | transferTimeout {s} (h : HistF F s) (term : Nat) : HistF F (s.transferTimeout term)
  | resetPeers {s} (h : HistF F s) (newc : List P) (hn : newc.Nodup) : HistF F (s.resetPeers newc)
  | goDown {s} (h : HistF F s) : HistF F s.goDown

theorem HistF.hist {F : P → Prop} {s : State P} (h : HistF F s) : Hist s := by
  induction h with
  | init self term conf old hn => exact Hist.init self term conf old hn
  | change _ newc hn a b ih => exact ih.change newc hn a b
  | addPeer _ p a b ih => exact ih.addPeer p a b
  | removePeer _ p a b ih => exact ih.removePeer p a b
  | caughtUp _ k c b ih => exact ih.caughtUp k c b
  | entryDone _ k o b ih => exact ih.entryDone k o b
  | stepDown _ t ih => exact ih.stepDown t
  | elect _ ih => exact ih.elect
  | becomeLeader _ a _ b ih => exact ih.becomeLeader a b
  | follow _ c o hn ih => exact ih.follow c o hn
  | transfer _ o ih => exact ih.transfer o
  | transferTimeout _ t ih => exact ih.transferTimeout t
  | resetPeers _ c hn ih => exact ih.resetPeers c hn
  | goDown _ ih => exact ih.goDown

/-- With nothing assumed of `F` this is every history. -/
theorem Hist.histF {s : State P} (h : Hist s) : HistF (fun _ => True) s := by
  induction h with
  | init self term conf old hn => exact .init self term conf old hn
  | change _ newc hn a b ih => exact ih.change newc hn a b
  | addPeer _ p a b ih => exact ih.addPeer p a b
  | removePeer _ p a b ih => exact ih.removePeer p a b
  | caughtUp _ k c b ih => exact ih.caughtUp k c b
  | entryDone _ k o b ih => exact ih.entryDone k o b
  | stepDown _ t ih => exact ih.stepDown t
  | elect _ ih => exact ih.elect
  | becomeLeader _ a b ih => exact ih.becomeLeader a (fun _ _ => trivial) b
  | follow _ c o hn ih => exact ih.follow c o hn
  | transfer _ o ih => exact ih.transfer o
  | transferTimeout _ t ih => exact ih.transferTimeout t
  | resetPeers _ c hn ih => exact ih.resetPeers c hn
  | goDown _ ih => exact ih.goDown

/-- `p` gets the log: it is this node, has a replicator, or could not get one. -/
def Fed (F : P → Prop) (s : State P) (p : P) : Prop := p = s.self ∨ p ∈ s.repl ∨ F p

/-- Of a leader: the members of every configuration in play are fed. -/
structure Cov (F : P → Prop) (s : State P) : Prop where
  conf : ∀ p ∈ s.conf, Fed F s p
  old : ∀ p ∈ s.old, Fed F s p
  new : ∀ p ∈ s.new, Fed F s p
  olds : ∀ p ∈ s.olds, Fed F s p

def LCov (F : P → Prop) (s : State P) : Prop := s.role = .leader ∨ s.role = .transferring → Cov F s

section
variable {F : P → Prop}

theorem submit_cov {s : State P} (h : Cov F s) {e : Entry P} (h1 : ∀ p ∈ e.conf, Fed F s p) (h2 : ∀ p ∈ e.olds, Fed F s p) (b : Bool) :
    Cov F (s.submit e b) := by
  unfold State.submit
  dsimp only
  split
  · exact ⟨h1, h2, h.new, h.olds⟩
  · exact ⟨h.conf, h.old, h.new, h.olds⟩

theorem stopRepl_fed {s : State P} {p : P} (h : Fed F s p) {keep drop : List P} (hk : p ∈ drop → p ∈ keep) : Fed F (s.stopRepl keep drop) p := by
  rcases h with h | h | h
  · exact Or.inl h
  · by_cases hs : p = s.self
    · exact Or.inl hs
    · refine Or.inr (Or.inl ?_)
      show p ∈ s.repl.filter _
      rw [List.mem_filter]
      refine ⟨h, ?_⟩
      by_cases hd : p ∈ drop
      · simp [hk hd]
      · simp [hd]
  · exact Or.inr (Or.inr h)

theorem reset_cov {s : State P} (h : Cov F s) (st : Option Code)
    (hc : s.stage ≠ .none → ∀ p, p ∈ s.conf ∨ p ∈ s.old → if st = some .ok then p ∈ s.new else p ∈ s.olds) : Cov F (s.reset st) := by
  unfold State.reset
  by_cases hs : s.stage = .none
  · rw [if_pos hs]; exact h
  rw [if_neg hs]
  dsimp only
  by_cases hst : st = some .ok
  · rw [if_pos hst]
    have key : ∀ p, p ∈ s.conf ∨ p ∈ s.old → Fed F (s.stopRepl s.new s.olds) p := by
      intro p hp
      have := hc hs p hp
      rw [if_pos hst] at this
      exact stopRepl_fed (h.new p this) (fun _ => this)
    exact ⟨fun p hp => key p (Or.inl hp), fun p hp => key p (Or.inr hp), fun p hp => (nomatch hp), fun p hp => (nomatch hp)⟩
  · rw [if_neg hst]
    have key : ∀ p, p ∈ s.conf ∨ p ∈ s.old → Fed F (s.stopRepl s.olds s.new) p := by
      intro p hp
      have := hc hs p hp
      rw [if_neg hst] at this
      exact stopRepl_fed (h.olds p this) (fun _ => this)
    exact ⟨fun p hp => key p (Or.inl hp), fun p hp => key p (Or.inr hp), fun p hp => (nomatch hp), fun p hp => (nomatch hp)⟩

theorem stepDown_lcov (s : State P) (hr : s.role ≠ .down) (t : Nat) : LCov F (s.stepDown t) := by
  intro h
  unfold State.stepDown at h
  rw [if_neg hr] at h
  have := (reset_same ({ s with role := .follower } : State P) none).1
  have h' : (State.reset ({ s with role := .follower } : State P) none).role = .leader ∨ (State.reset ({ s with role := .follower } : State P) none).role = .transferring := h
  rw [this] at h'
  rcases h' with h | h <;> cases h

theorem stepDown_lcov' {s : State P} (h : LCov F s) (t : Nat) : LCov F (s.stepDown t) := by
  by_cases hr : s.role = .down
  · unfold State.stepDown; rw [if_pos hr]; exact h
  · exact stepDown_lcov s hr t

/-- The entry of a change moves it on; it is committed, so it is in force. -/
theorem nextStage_lcov {s : State P} (h : Cov F s) (hr : s.role = .leader)
    (hst : s.stage = .stable → ∀ p, p ∈ s.conf ∨ p ∈ s.old → p ∈ s.new) (b : Bool) : LCov F (s.nextStage b) := by
  intro _
  unfold State.nextStage
  dsimp only
  have hck : Cov F (s.check s.busy) := ⟨h.conf, h.old, h.new, h.olds⟩
  have hs1 : (s.check s.busy).stage = s.stage := rfl
  have hnil : ∀ p : P, p ∈ ([] : List P) → False := fun p hp => by cases hp
  rw [hs1]
  cases hs : s.stage
  · exact ⟨h.conf, h.old, h.new, h.olds⟩
  · dsimp only
    split
    · refine submit_cov (s := { s.check s.busy with stage := .joint }) (e := ⟨s.new, some s.olds⟩) ?_ ?_ ?_ b
      · exact ⟨h.conf, h.old, h.new, h.olds⟩
      · exact h.new
      · exact h.olds
    · refine submit_cov (s := { s.check s.busy with stage := .stable }) (e := ⟨s.new, none⟩) ?_ ?_ (fun p hp => (hnil p hp).elim) b
      · exact ⟨h.conf, h.old, h.new, h.olds⟩
      · exact h.new
  · refine submit_cov (s := { s.check s.busy with stage := .stable }) (e := ⟨s.new, none⟩) ?_ ?_ (fun p hp => (hnil p hp).elim) b
    · exact ⟨h.conf, h.old, h.new, h.olds⟩
    · exact h.new
  · dsimp only
    have hrc : Cov F ((s.check s.busy).reset (some .ok)) := by
      refine reset_cov hck _ ?_
      intro _ p hp
      rw [if_pos rfl]
      exact hst hs p hp
    split
    · exact hrc
    · rename_i hx
      refine stepDown_lcov _ ?_ _ ?_
      · rw [(reset_same _ _).1]; show s.role ≠ .down; rw [hr]; decide
      · rename_i hl
        unfold State.nextStage at hl
        dsimp only at hl
        rw [hs1, hs] at hl
        dsimp only at hl
        rw [if_neg hx] at hl
        exact hl

theorem ctxCaughtUp_lcov {s : State P} (h : Cov F s) (hr : s.role = .leader) (hst : s.stage = .catching)
    (hc : ∀ p, p ∈ s.conf ∨ p ∈ s.old → p ∈ s.olds) (v : Nat) (p : P) (x b : Bool) : LCov F (s.ctxCaughtUp v p x b) := by
  unfold State.ctxCaughtUp
  dsimp only
  split
  · exact fun _ => h
  split
  · split
    · refine nextStage_lcov ?_ ?_ ?_ b
      · exact ⟨h.conf, h.old, h.new, h.olds⟩
      · exact hr
      · intro hx
        have : s.stage = .stable := hx
        rw [hst] at this; cases this
    · exact fun _ => ⟨h.conf, h.old, h.new, h.olds⟩
  · intro _
    refine reset_cov (s := s.check _) ⟨h.conf, h.old, h.new, h.olds⟩ _ ?_
    intro _ q hq
    rw [if_neg (by simp)]
    exact hc q hq

/-- While the replicators of new peers are started; those in `ps` are to come. -/
theorem startLoop_lcov (addOk : P → Bool) (ps : List P) : ∀ {s : State P}, s.role = .leader → s.stage = .catching →
    (∀ p, p ∈ s.conf ∨ p ∈ s.old → p ∈ s.olds) → (∀ p ∈ s.conf, Fed F s p) → (∀ p ∈ s.old, Fed F s p) → (∀ p ∈ s.olds, Fed F s p) →
    (∀ p ∈ s.new, Fed F s p ∨ p ∈ ps) → LCov F (s.startLoop addOk ps) := by
  induction ps with
  | nil =>
    intro s hr hst hc h1 h2 h3 h4 _
    refine ⟨h1, h2, ?_, h3⟩
    intro p hp
    rcases h4 p hp with h | h
    · exact h
    · cases h
  | cons p ps ih =>
    intro s hr hst hc h1 h2 h3 h4
    unfold State.startLoop
    have hmono : ∀ q : P, Fed F s q → Fed F ({ s with repl := if p ∈ s.repl then s.repl else p :: s.repl, waits := s.waits ++ [(p, s.term, s.version)] } : State P) q := by
      intro q hq
      rcases hq with hq | hq | hq
      · exact Or.inl hq
      · refine Or.inr (Or.inl ?_)
        show q ∈ (if p ∈ s.repl then s.repl else p :: s.repl)
        split
        · exact hq
        · exact List.mem_cons_of_mem _ hq
      · exact Or.inr (Or.inr hq)
    split
    · refine ih hr hst hc (fun q hq => hmono q (h1 q hq)) (fun q hq => hmono q (h2 q hq)) (fun q hq => hmono q (h3 q hq)) ?_
      intro q hq
      rcases h4 q hq with h | h
      · exact Or.inl (hmono q h)
      · rcases List.mem_cons.mp h with rfl | h
        · refine Or.inl (Or.inr (Or.inl ?_))
          show q ∈ (if q ∈ s.repl then s.repl else q :: s.repl)
          split
          · assumption
          · exact List.mem_cons_self ..
        · exact Or.inr h
    · -- the change is given up: nobody waits for the peers not started
      unfold State.ctxCaughtUp
      rw [if_neg (by simp)]
      dsimp only
      rw [if_neg (by decide)]
      intro _
      unfold State.reset
      have hne : ¬ (s.check (decide (s.stage = .catching))).stage = .none := by show ¬ s.stage = .none; rw [hst]; decide
      rw [if_neg hne]
      dsimp only
      rw [if_neg (by simp)]
      have key : ∀ q, q ∈ s.conf ∨ q ∈ s.old → Fed F s q → Fed F ((s.check (decide (s.stage = .catching))).stopRepl s.olds s.new) q := by
        intro q hq hf
        exact stopRepl_fed (s := s.check (decide (s.stage = .catching))) hf (fun _ => hc q hq)
      exact ⟨fun q hq => key q (Or.inl hq) (h1 q hq), fun q hq => key q (Or.inr hq) (h2 q hq), fun q hq => (nomatch hq), fun q hq => (nomatch hq)⟩

theorem change_lcov {s : State P} (hi : Inv s) (h : LCov F s) (newc : List P) (addOk : P → Bool) (b : Bool) :
    LCov F (s.change newc addOk b) := by
  unfold State.change
  dsimp only
  have hans : ∀ c, LCov F (State.answer ({ s with reqs := s.reqs ++ [newc] } : State P) s.reqs.length c) := by
    intro c hx
    have := h hx
    exact ⟨this.conf, this.old, this.new, this.olds⟩
  by_cases hr : s.role ≠ .leader
  · rw [if_pos hr]; exact hans _
  rw [if_neg hr]
  have hr' : s.role = .leader := Decidable.not_not.mp hr
  by_cases hb : s.busy = true
  · rw [if_pos hb]; exact hans _
  rw [if_neg hb]
  by_cases hc : sameSet s.conf newc = true
  · rw [if_pos hc]; exact hans _
  rw [if_neg hc]
  have hst : s.stage = .none := by unfold State.busy at hb; simpa using hb
  have hph := hi.phase
  unfold Phase at hph
  rw [hr'] at hph
  dsimp only at hph
  unfold Lead at hph
  rw [hst] at hph
  dsimp only at hph
  have hold := hph.2.1.old
  have hcov := h (Or.inl hr')
  have holdf : ∀ p : P, p ∈ s.conf ∨ p ∈ s.old → p ∈ s.conf := by
    intro p hp
    rcases hp with hp | hp
    · exact hp
    · rw [hold] at hp; cases hp
  unfold State.start
  dsimp only
  split
  · rename_i he
    refine nextStage_lcov ?_ ?_ ?_ b
    rotate_left
    · exact hr'
    · intro hx; cases hx
    refine ⟨hcov.conf, hcov.old, ?_, hcov.conf⟩
    intro p hp
    have hp' : p ∈ newc := hp
    have hc' : p ∈ s.conf := by
      apply Decidable.byContradiction
      intro hn
      have : p ∈ minus newc s.conf := mem_minus.mpr ⟨hp', hn⟩
      rw [List.isEmpty_iff.mp he] at this; cases this
    exact hcov.conf p hc'
  · refine startLoop_lcov addOk (minus newc s.conf) hr' rfl holdf hcov.conf hcov.old hcov.conf ?_
    intro p hp
    have hp' : p ∈ newc := hp
    by_cases hc' : p ∈ s.conf
    · exact Or.inl (hcov.conf p hc')
    · exact Or.inr (mem_minus.mpr ⟨hp', hc'⟩)

theorem caughtUp_lcov {s : State P} (hi : Inv s) (h : LCov F s) (k : Nat) (c : Caught) (b : Bool) : LCov F (s.caughtUp k c b) := by
  unfold State.caughtUp
  cases hk : s.waits[k]? with
  | none => exact h
  | some x =>
    obtain ⟨p, t, v⟩ := x
    dsimp only
    have hd : LCov F ({ s with waits := s.waits.eraseIdx k } : State P) := fun hx => by
      have := h hx
      exact ⟨this.conf, this.old, this.new, this.olds⟩
    split
    · exact hd
    · rename_i hc
      have hrole : s.role = .leader := by
        apply Decidable.byContradiction; intro hx; exact hc (Or.inl hx)
      have hcov := h (Or.inl hrole)
      by_cases hv : v = s.version
      · obtain ⟨hcat, _⟩ := hi.catching hrole (List.mem_of_getElem? hk) hv
        have hold := hcat.settled.old
        have holdf : ∀ p : P, p ∈ s.conf ∨ p ∈ s.old → p ∈ s.olds := by
          intro p hp
          rw [hcat.olds]
          rcases hp with hp | hp
          · exact hp
          · rw [hold] at hp; cases hp
        have hx := fun x => ctxCaughtUp_lcov (F := F) (s := { s with waits := s.waits.eraseIdx k }) (hd (Or.inl hrole)) hrole hcat.stage holdf v p x b
        cases c with
        | ok => exact hx true
        | fail => exact hx false
        | retry => exact fun _ => ⟨hcov.conf, hcov.old, hcov.new, hcov.olds⟩
      · have hskip : ∀ succ, (({ s with waits := s.waits.eraseIdx k } : State P).ctxCaughtUp v p succ b) = { s with waits := s.waits.eraseIdx k } := by
          intro succ; unfold State.ctxCaughtUp; rw [if_pos hv]
        cases c with
        | ok => show LCov F (State.ctxCaughtUp _ v p true b); rw [hskip]; exact hd
        | fail => show LCov F (State.ctxCaughtUp _ v p false b); rw [hskip]; exact hd
        | retry => exact fun _ => ⟨hcov.conf, hcov.old, hcov.new, hcov.olds⟩

theorem entryDone_lcov {s : State P} (hi : Inv s) (h : LCov F s) (k : Nat) (ok b : Bool) : LCov F (s.entryDone k ok b) := by
  unfold State.entryDone
  cases hk : s.pend[k]? with
  | none => exact h
  | some p =>
    dsimp only
    split
    · rename_i hok
      rw [Bool.and_eq_true] at hok
      split
      · rename_i hl
        obtain ⟨hrole, hterm⟩ := hl
        have hcov := h hrole
        have hmem := List.mem_of_getElem? hk
        have hlead : Lead s := by
          have := hi.phase
          unfold Phase at this
          rcases hrole with hr | hr <;> rw [hr] at this <;> exact this
        unfold Lead at hlead
        have hr : s.role = .leader := by
          have hst : s.stage = .none ∨ s.stage = .catching ∨ s.stage = .joint ∨ s.stage = .stable := by
            cases s.stage <;> simp
          rcases hst with hs | hs | hs | hs <;> rw [hs] at hlead <;> dsimp only at hlead
          · have := hlead.1 p hmem; omega
          · exact hlead.1
          · exact hlead.1
          · exact hlead.1
        refine nextStage_lcov ?_ ?_ ?_ b
        · exact ⟨hcov.conf, hcov.old, hcov.new, hcov.olds⟩
        · exact hr
        intro hs q hq
        have hs' : s.stage = .stable := hs
        rw [hs'] at hlead
        dsimp only at hlead
        obtain ⟨e1, e2⟩ := hlead.2.1.ent p hmem hterm
        obtain ⟨e3, e4⟩ := e2 hok.2
        rcases hq with hq | hq
        · have hq' : q ∈ s.conf := hq
          rw [e3] at hq'; exact hq'
        · have hq' : q ∈ s.old := hq
          rw [e4] at hq'; cases hq'
      · intro hx
        have := h hx
        exact ⟨this.conf, this.old, this.new, this.olds⟩
    · intro hx
      have := h hx
      exact ⟨this.conf, this.old, this.new, this.olds⟩

theorem flush_cov {s : State P} (h1 : ∀ p ∈ s.conf, Fed F s p) (h2 : ∀ p ∈ s.old, Fed F s p) (b : Bool) : Cov F (s.flush b) := by
  unfold State.flush
  dsimp only
  have hnil : ∀ p : P, p ∈ ([] : List P) → False := fun p hp => by cases hp
  by_cases ho : s.old.isEmpty = true
  · rw [if_pos ho, if_pos ho]
    refine submit_cov (e := ⟨s.conf, none⟩) ?_ ?_ (fun p hp => (hnil p hp).elim) b
    · exact ⟨h1, h2, h1, h1⟩
    · exact h1
  · rw [if_neg ho, if_neg ho]
    refine submit_cov (e := ⟨s.conf, some s.old⟩) ?_ ?_ ?_ b
    · exact ⟨h1, h2, h1, h2⟩
    · exact h1
    · exact h2

theorem becomeLeader_lcov {s : State P} (h : LCov F s) (addOk : P → Bool) (hF : ∀ p, addOk p = false → F p) (b : Bool) :
    LCov F (s.becomeLeader addOk b) := by
  unfold State.becomeLeader
  split
  · intro _
    have key : ∀ p, p ∈ s.conf ∨ p ∈ s.old →
        p = s.self ∨ p ∈ (s.conf ++ s.old).filter (fun p => decide (p ≠ s.self) && addOk p) ∨ F p := by
      intro p hp
      by_cases hs : p = s.self
      · exact Or.inl hs
      · cases ha : addOk p with
        | false => exact Or.inr (Or.inr (hF p ha))
        | true =>
          refine Or.inr (Or.inl ?_)
          rw [List.mem_filter, List.mem_append]
          exact ⟨hp, by simp [hs, ha]⟩
    refine flush_cov ?_ ?_ b
    · intro p hp; exact key p (Or.inl hp)
    · intro p hp; exact key p (Or.inr hp)
  · exact h

theorem goDown_lcov (s : State P) : LCov F s.goDown := by
  intro h
  unfold State.goDown at h
  rcases h with h | h <;> cases h

theorem resetPeers_lcov {s : State P} (h : LCov F s) (newc : List P) : LCov F (s.resetPeers newc) := by
  unfold State.resetPeers
  split
  · exact h
  split
  · exact h
  · rename_i hr
    split
    · refine stepDown_lcov _ ?_ _; exact hr
    split
    · exact h
    split
    · exact h
    · refine stepDown_lcov _ ?_ _; exact hr

theorem HistF.cov {s : State P} (h : HistF F s) : LCov F s := by
  induction h with
  | init self term conf old hn => intro h; rcases h with h | h <;> cases h
  | change h newc hn a b ih => exact change_lcov h.hist.inv.1 ih newc a b
  | addPeer h p a b ih => exact change_lcov h.hist.inv.1 ih _ a b
  | removePeer h p a b ih => exact change_lcov h.hist.inv.1 ih _ a b
  | caughtUp h k c b ih => exact caughtUp_lcov h.hist.inv.1 ih k c b
  | entryDone h k o b ih => exact entryDone_lcov h.hist.inv.1 ih k o b
  | stepDown h t ih => exact stepDown_lcov' ih t
  | elect h ih =>
    unfold State.elect
    split
    · intro h; rcases h with h | h <;> cases h
    · exact ih
  | becomeLeader h a hF b ih => exact becomeLeader_lcov ih a hF b
  | follow h c o hn ih =>
    rename_i s
    unfold State.follow
    split
    · rename_i hr
      intro h
      have h' : s.role = .leader ∨ s.role = .transferring := h
      rw [hr] at h'; rcases h' with h | h <;> cases h
    · exact ih
  | transfer h o ih =>
    unfold State.transfer
    split
    · rename_i hr
      have := ih (Or.inl hr.1)
      exact fun _ => ⟨this.conf, this.old, this.new, this.olds⟩
    · exact ih
  | transferTimeout h t ih =>
    unfold State.transferTimeout
    split
    · rename_i hr
      have := ih (Or.inr hr.2)
      exact fun _ => ⟨this.conf, this.old, this.new, this.olds⟩
    · exact ih
  | resetPeers h c hn ih => exact resetPeers_lcov ih c
  | goDown h ih => exact goDown_lcov _
end

/-! ### The node itself -/

/-- A candidate is a member. A leader with no change in progress, or whose change still waits for peers, is a member. No
leader replicates to itself. -/
structure Mem (s : State P) : Prop where
  cand : s.role = .candidate → s.self ∈ s.conf ∨ s.self ∈ s.old
  idle : s.role = .leader ∨ s.role = .transferring → s.stage = .none ∨ s.stage = .catching → s.self ∈ s.conf
  repl : s.self ∉ s.repl

theorem reset_self {s : State P} (h : s.self ∉ s.repl) (st : Option Code) : (s.reset st).self ∉ (s.reset st).repl := by
  unfold State.reset
  split
  · exact h
  · dsimp only
    split
    · exact fun hx => h (List.mem_filter.mp hx).1
    · exact fun hx => h (List.mem_filter.mp hx).1

theorem stepDown_mem {s : State P} (hr : s.role ≠ .down) (t : Nat) : Mem (s.stepDown t) := by
  unfold State.stepDown
  rw [if_neg hr]
  have hro := (reset_same ({ s with role := .follower } : State P) none).1
  refine ⟨?_, ?_, ?_⟩
  · intro h
    have h' : (State.reset ({ s with role := .follower } : State P) none).role = .candidate := h
    rw [hro] at h'; cases h'
  · intro h
    have h' : (State.reset ({ s with role := .follower } : State P) none).role = .leader ∨ (State.reset ({ s with role := .follower } : State P) none).role = .transferring := h
    rw [hro] at h'; rcases h' with h | h <;> cases h
  · intro h; cases h

theorem submit_mem {s : State P} (hr : s.role = .leader) (hs : s.stage = .joint ∨ s.stage = .stable) (h : s.self ∉ s.repl) (e : Entry P) (b : Bool) :
    Mem (s.submit e b) := by
  have e1 : (s.submit e b).role = s.role ∧ (s.submit e b).stage = s.stage ∧ (s.submit e b).self = s.self ∧ (s.submit e b).repl = s.repl := by
    unfold State.submit
    dsimp only
    split <;> exact ⟨rfl, rfl, rfl, rfl⟩
  obtain ⟨a1, a2, a3, a4⟩ := e1
  refine ⟨?_, ?_, ?_⟩
  · rw [a1, hr]; intro h; cases h
  · rw [a2]; rcases hs with hs | hs <;> rw [hs] <;> intro _ h <;> rcases h with h | h <;> cases h
  · rw [a3, a4]; exact h

theorem nextStage_mem {s : State P} (hr : s.role = .leader) (h : s.self ∉ s.repl) (hns : s.stage ≠ .none)
    (hst : s.stage = .stable → s.conf = s.new) (b : Bool) : Mem (s.nextStage b) := by
  unfold State.nextStage
  dsimp only
  have hs1 : (s.check s.busy).stage = s.stage := rfl
  rw [hs1]
  cases hs : s.stage
  · exact absurd hs hns
  · dsimp only
    split
    · exact submit_mem (s := { s.check s.busy with stage := .joint }) hr (Or.inl rfl) h _ b
    · exact submit_mem (s := { s.check s.busy with stage := .stable }) hr (Or.inr rfl) h _ b
  · exact submit_mem (s := { s.check s.busy with stage := .stable }) hr (Or.inr rfl) h _ b
  · dsimp only
    obtain ⟨a1, a2, a3, a4, a5, a6, a7, a8, a9, a10, a11⟩ := reset_same (s.check s.busy) (some .ok)
    split
    · rename_i hx
      refine ⟨?_, ?_, reset_self (s := s.check s.busy) h _⟩
      · rw [a1]; intro hc
        have hc' : s.role = .candidate := hc
        rw [hr] at hc'; cases hc'
      · intro _ _
        rw [a9, a3]
        show s.self ∈ s.conf
        rw [hst hs]; exact hx
    · refine stepDown_mem ?_ _
      rw [a1]; show s.role ≠ .down; rw [hr]; decide

theorem ctxCaughtUp_mem {s : State P} (h : Mem s) (hr : s.role = .leader) (hst : s.stage = .catching) (v : Nat) (p : P) (x b : Bool) :
    Mem (s.ctxCaughtUp v p x b) := by
  unfold State.ctxCaughtUp
  dsimp only
  split
  · exact h
  split
  · split
    · refine nextStage_mem ?_ ?_ ?_ ?_ b
      · exact hr
      · exact h.repl
      · show s.stage ≠ .none; rw [hst]; decide
      · intro hx
        have hx' : s.stage = .stable := hx
        rw [hst] at hx'; cases hx'
    · exact ⟨h.cand, h.idle, h.repl⟩
  · obtain ⟨a1, a2, a3, a4, a5, a6, a7, a8, a9, a10, a11⟩ := reset_same (s.check (decide (s.stage = .catching))) (some .ecatchup)
    refine ⟨?_, ?_, reset_self (s := s.check _) h.repl _⟩
    · rw [a1]; intro hc
      have hc' : s.role = .candidate := hc
      rw [hr] at hc'; cases hc'
    · intro _ _
      rw [a9, a3]
      exact h.idle (Or.inl hr) (Or.inr hst)

theorem startLoop_mem (addOk : P → Bool) (ps : List P) : ∀ {s : State P}, Mem s → s.role = .leader → s.stage = .catching → s.self ∉ ps →
    Mem (s.startLoop addOk ps) := by
  induction ps with
  | nil => intro s h _ _ _; exact h
  | cons p ps ih =>
    intro s h hr hst hps
    unfold State.startLoop
    split
    · refine ih ⟨h.cand, h.idle, ?_⟩ hr hst (fun hx => hps (List.mem_cons_of_mem _ hx))
      show s.self ∉ (if p ∈ s.repl then s.repl else p :: s.repl)
      split
      · exact h.repl
      · intro hx
        rcases List.mem_cons.mp hx with hx | hx
        · exact hps (by rw [hx]; exact List.mem_cons_self ..)
        · exact h.repl hx
    · exact ctxCaughtUp_mem h hr hst _ _ _ _

theorem change_mem {s : State P} (h : Mem s) (newc : List P) (addOk : P → Bool) (b : Bool) : Mem (s.change newc addOk b) := by
  unfold State.change
  dsimp only
  have hans : ∀ c, Mem (State.answer ({ s with reqs := s.reqs ++ [newc] } : State P) s.reqs.length c) := fun c => ⟨h.cand, h.idle, h.repl⟩
  by_cases hr : s.role ≠ .leader
  · rw [if_pos hr]; exact hans _
  rw [if_neg hr]
  have hr' : s.role = .leader := Decidable.not_not.mp hr
  by_cases hb : s.busy = true
  · rw [if_pos hb]; exact hans _
  rw [if_neg hb]
  by_cases hc : sameSet s.conf newc = true
  · rw [if_pos hc]; exact hans _
  rw [if_neg hc]
  have hst : s.stage = .none := by unfold State.busy at hb; simpa using hb
  have hself := h.idle (Or.inl hr') (Or.inl hst)
  unfold State.start
  dsimp only
  split
  · refine nextStage_mem ?_ ?_ ?_ ?_ b
    · exact hr'
    · exact h.repl
    · simp
    · intro hx; cases hx
  · refine startLoop_mem addOk (minus newc s.conf) ⟨?_, ?_, ?_⟩ hr' rfl ?_
    · intro hx
      have hx' : s.role = .candidate := hx
      rw [hr'] at hx'; cases hx'
    · exact fun _ _ => hself
    · exact h.repl
    · intro hx; exact (mem_minus.mp hx).2 hself

theorem caughtUp_mem {s : State P} (hi : Inv s) (h : Mem s) (k : Nat) (c : Caught) (b : Bool) : Mem (s.caughtUp k c b) := by
  unfold State.caughtUp
  cases hk : s.waits[k]? with
  | none => exact h
  | some x =>
    obtain ⟨p, t, v⟩ := x
    dsimp only
    have hd : Mem ({ s with waits := s.waits.eraseIdx k } : State P) := ⟨h.cand, h.idle, h.repl⟩
    split
    · exact hd
    · rename_i hc
      have hrole : s.role = .leader := by
        apply Decidable.byContradiction; intro hx; exact hc (Or.inl hx)
      by_cases hv : v = s.version
      · obtain ⟨hcat, _⟩ := hi.catching hrole (List.mem_of_getElem? hk) hv
        have hx := fun x => ctxCaughtUp_mem (s := { s with waits := s.waits.eraseIdx k }) hd hrole hcat.stage v p x b
        cases c with
        | ok => exact hx true
        | fail => exact hx false
        | retry => exact ⟨h.cand, h.idle, h.repl⟩
      · have hskip : ∀ succ, (({ s with waits := s.waits.eraseIdx k } : State P).ctxCaughtUp v p succ b) = { s with waits := s.waits.eraseIdx k } := by
          intro succ; unfold State.ctxCaughtUp; rw [if_pos hv]
        cases c with
        | ok => show Mem (State.ctxCaughtUp _ v p true b); rw [hskip]; exact hd
        | fail => show Mem (State.ctxCaughtUp _ v p false b); rw [hskip]; exact hd
        | retry => exact ⟨h.cand, h.idle, h.repl⟩

theorem entryDone_mem {s : State P} (hi : Inv s) (h : Mem s) (k : Nat) (ok b : Bool) : Mem (s.entryDone k ok b) := by
  unfold State.entryDone
  cases hk : s.pend[k]? with
  | none => exact h
  | some p =>
    dsimp only
    split
    · rename_i hok
      rw [Bool.and_eq_true] at hok
      split
      · rename_i hl
        obtain ⟨hrole, hterm⟩ := hl
        have hmem := List.mem_of_getElem? hk
        have hlead : Lead s := by
          have := hi.phase
          unfold Phase at this
          rcases hrole with hr | hr <;> rw [hr] at this <;> exact this
        unfold Lead at hlead
        have hst : s.stage = .none ∨ s.stage = .catching ∨ s.stage = .joint ∨ s.stage = .stable := by
          cases s.stage <;> simp
        rcases hst with hs | hs | hs | hs <;> rw [hs] at hlead <;> dsimp only at hlead
        · have := hlead.1 p hmem; omega
        · have := hlead.2.1 p hmem; omega
        · refine nextStage_mem ?_ ?_ ?_ ?_ b
          · exact hlead.1
          · exact h.repl
          · show s.stage ≠ .none; rw [hs]; decide
          · intro hx
            have hx' : s.stage = .stable := hx
            rw [hs] at hx'; cases hx'
        · obtain ⟨e1, e2⟩ := hlead.2.1.ent p hmem hterm
          obtain ⟨e3, e4⟩ := e2 hok.2
          refine nextStage_mem ?_ ?_ ?_ ?_ b
          · exact hlead.1
          · exact h.repl
          · show s.stage ≠ .none; rw [hs]; decide
          · intro _; exact e3
      · exact ⟨h.cand, h.idle, h.repl⟩
    · exact ⟨h.cand, h.idle, h.repl⟩

theorem becomeLeader_mem {s : State P} (h : Mem s) (addOk : P → Bool) (b : Bool) : Mem (s.becomeLeader addOk b) := by
  unfold State.becomeLeader
  split
  · unfold State.flush
    dsimp only
    have hx : s.self ∉ (s.conf ++ s.old).filter (fun p => decide (p ≠ s.self) && addOk p) := by
      intro hx; rw [List.mem_filter] at hx; simp at hx
    split
    · refine submit_mem ?_ (Or.inr rfl) ?_ _ b
      · rfl
      · exact hx
    · refine submit_mem ?_ (Or.inl rfl) ?_ _ b
      · rfl
      · exact hx
  · exact h

theorem resetPeers_mem {s : State P} (h : Mem s) (newc : List P) : Mem (s.resetPeers newc) := by
  unfold State.resetPeers
  split
  · exact h
  split
  · exact h
  · rename_i hr
    split
    · refine stepDown_mem ?_ _; exact hr
    split
    · exact h
    split
    · exact h
    · refine stepDown_mem ?_ _; exact hr

theorem Hist.mem {s : State P} (h : Hist s) : Mem s := by
  induction h with
  | init self term conf old hn =>
    exact ⟨fun h => (nomatch h), fun h => (by rcases h with h | h <;> cases h), fun h => (nomatch h)⟩
  | change h newc hn a b ih => exact change_mem ih newc a b
  | addPeer h p a b ih => exact change_mem ih _ a b
  | removePeer h p a b ih => exact change_mem ih _ a b
  | caughtUp h k c b ih => exact caughtUp_mem h.inv.1 ih k c b
  | entryDone h k o b ih => exact entryDone_mem h.inv.1 ih k o b
  | stepDown h t ih =>
    rename_i s
    by_cases hr : s.role = .down
    · unfold State.stepDown; rw [if_pos hr]; exact ih
    · exact stepDown_mem hr t
  | elect h ih =>
    unfold State.elect
    split
    · rename_i hc
      exact ⟨fun _ => hc.2, fun h => (by rcases h with h | h <;> cases h), ih.repl⟩
    · exact ih
  | becomeLeader h a b ih => exact becomeLeader_mem ih a b
  | follow h c o hn ih =>
    rename_i s
    unfold State.follow
    split
    · rename_i hr
      refine ⟨?_, ?_, ih.repl⟩
      · intro h
        have h' : s.role = .candidate := h
        rw [hr] at h'; cases h'
      · intro h
        have h' : s.role = .leader ∨ s.role = .transferring := h
        rw [hr] at h'; rcases h' with h | h <;> cases h
    · exact ih
  | transfer h o ih =>
    unfold State.transfer
    split
    · rename_i hr
      exact ⟨fun h => (nomatch h), fun _ => ih.idle (Or.inl hr.1), ih.repl⟩
    · exact ih
  | transferTimeout h t ih =>
    unfold State.transferTimeout
    split
    · rename_i hr
      exact ⟨fun h => (nomatch h), fun _ => ih.idle (Or.inr hr.2), ih.repl⟩
    · exact ih
  | resetPeers h c hn ih => exact resetPeers_mem ih c
  | goDown h ih =>
    rename_i s
    refine ⟨fun h => (nomatch h), fun h => (by rcases h with h | h <;> cases h), ?_⟩
    show (s.stepDown s.term).self ∉ (s.stepDown s.term).repl
    by_cases hr : s.role = .down
    · unfold State.stepDown; rw [if_pos hr]; exact ih.repl
    · exact (stepDown_mem hr s.term).repl

end Braft.ConfCtx
