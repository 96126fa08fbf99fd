import Verif.Node.TransferInv
import Verif.Props.Replicator
/-!
C64: transfer_leadership_to. C43 for the whole node: TimeoutNow is sent only when the target has the whole log of the leader.
-/
set_option linter.unusedVariables false
set_option linter.unusedSectionVars false

namespace Braft.Props
open Braft.Repl Braft.Transfer

variable {P : Type} [DecidableEq P] {wit : P → Bool} {any self p : P} {T : Nat} {w : Bool}

/-- A replicator whose peer can take over: the peer is in the configuration (or in the old one during a joint change) and is not
a witness; the replicator runs and its last RPC did not fail. -/
def CanTake (wit : P → Bool) (c : Conf P) (i : Info P) : Prop :=
  (i.peer ∈ c.conf ∨ i.peer ∈ c.old) ∧ wit i.peer = false ∧ i.alive = true ∧ i.errs = 0

theorem canTake_iff (c : Conf P) (i : Info P) : CanTake wit c i ↔ Eligible wit c i := by
  unfold CanTake Eligible Conf.has
  simp only [Bool.or_eq_true, decide_eq_true_eq]
  constructor
  · rintro ⟨a, b, c, d⟩; exact ⟨a, c, d, b⟩
  · rintro ⟨a, b, c, d⟩; exact ⟨a, d, b, c⟩

/-- C64. The peer chosen for ANY_PEER, or woken by a leader that quits, in whatever order the peers are looked at: it can take
over, it has answered success, and no other peer that can take over has acknowledged more. -/
theorem candidate_is_best (c : Conf P) (reps : List (Info P)) (q : P) (h : findNext wit c reps = some q) :
    ∃ i ∈ reps, i.peer = q ∧ CanTake wit c i ∧ 0 < i.next ∧ ∀ j ∈ reps, CanTake wit c j → j.next ≤ i.next := by
  unfold findNext at h
  dsimp only at h
  obtain ⟨_, h2, h3⟩ := findLoop_spec (wit := wit) (c := c) reps (none, 0)
  split at h
  · cases h
  · rename_i h0
    rcases h3 with h3 | ⟨i, hi, he, h4, h5⟩
    · rw [h3] at h0; exact absurd rfl h0
    · rw [h4] at h h2
      exact ⟨i, hi, Option.some.inj h, (canTake_iff c i).2 he, h5, fun j hj hc => h2 j hj ((canTake_iff c j).1 hc)⟩

/-- C64. None is chosen only if no peer that can take over has answered success. -/
theorem no_candidate (c : Conf P) (reps : List (Info P)) (h : findNext wit c reps = none) :
    ∀ j ∈ reps, CanTake wit c j → j.next = 0 := by
  unfold findNext at h
  dsimp only at h
  obtain ⟨_, h2, h3⟩ := findLoop_spec (wit := wit) (c := c) reps (none, 0)
  split at h
  · rename_i h0
    intro j hj hc
    have := h2 j hj ((canTake_iff c j).1 hc)
    omega
  · rename_i h0
    rcases h3 with h3 | ⟨i, hi, he, h4, h5⟩
    · rw [h3] at h0; exact absurd rfl h0
    · rw [h4] at h; cases h

/-- C64. When a transfer to `q` is started: this node leads and no configuration change is going on, `q` is the peer that was
asked for or the one chosen for ANY_PEER, is not this node, is in the configuration, and its replicator runs without errors.
Then 0 is returned. -/
theorem transfer_started_iff (role : Role) (busy : Bool) (c : Conf P) (reps : List (Info P)) (peer q : P) :
    transferTo wit any self role busy c reps peer = (.ok, some q) ↔
      role = .leader ∧ busy = false ∧ (if peer = any then findNext wit c reps = some q else q = peer) ∧ q ≠ self ∧
      (q ∈ c.conf ∨ q ∈ c.old) ∧
      ∃ i, reps.find? (fun i => decide (i.peer = q)) = some i ∧ i.alive = true ∧ i.errs = 0 := by
  have hg : groupCode reps q = .ok ↔ ∃ i, reps.find? (fun i => decide (i.peer = q)) = some i ∧ i.alive = true ∧ i.errs = 0 := by
    unfold groupCode
    cases reps.find? (fun i => decide (i.peer = q)) with
    | none => simp
    | some i =>
      cases ha : i.alive with
      | false => simp [ha]
      | true =>
        by_cases he : 0 < i.errs
        · simp [ha, he]; omega
        · have : i.errs = 0 := by omega
          simp [ha, this]
  have hc : c.has q = true ↔ (q ∈ c.conf ∨ q ∈ c.old) := by unfold Conf.has; simp
  rw [← hg, ← hc]
  unfold transferTo
  cases role with
  | transferring => simp
  | other => simp
  | leader =>
    cases busy with
    | true => simp
    | false =>
      simp only [Bool.false_eq_true, if_false, true_and]
      have key : ∀ t : Option P, (if peer = any then findNext wit c reps else some peer) = t →
          ((if peer = any then findNext wit c reps = some q else q = peer) ↔ t = some q) := by
        intro t ht; subst ht
        split
        · exact Iff.rfl
        · rw [Option.some.injEq]; exact eq_comm
      generalize ht : (if peer = any then findNext wit c reps else some peer) = t
      rw [key t ht]
      cases t with
      | none => simp
      | some x =>
        dsimp only
        by_cases h1 : x = self
        · rw [if_pos h1]
          constructor
          · intro h; cases h
          · rintro ⟨h, h', _⟩; exact absurd ((Option.some.inj h).symm.trans h1) h'
        · rw [if_neg h1]
          by_cases h2 : (!c.has x) = true
          · rw [if_pos h2]
            constructor
            · intro h; cases h
            · rintro ⟨h, _, h', _⟩
              rw [← Option.some.inj h] at h'; rw [h'] at h2; exact absurd h2 (by decide)
          · rw [if_neg h2]
            have h2' : c.has x = true := by cases h : c.has x <;> simp_all
            by_cases h3 : groupCode reps x = .ok
            · rw [if_pos h3]
              constructor
              · intro h
                have hx : x = q := by
                  have := congrArg Prod.snd h; exact Option.some.inj this
                subst hx
                exact ⟨rfl, h1, h2', h3⟩
              · rintro ⟨h, _⟩
                rw [Option.some.inj h]
            · rw [if_neg h3]
              constructor
              · intro h; have := congrArg Prod.snd h; cases this
              · rintro ⟨h, _, _, h'⟩
                rw [← Option.some.inj h] at h'; exact absurd h' h3

/-- C64. 0 is returned only if a transfer was started or the target is this node; what is returned otherwise. -/
theorem transfer_codes (role : Role) (busy : Bool) (c : Conf P) (reps : List (Info P)) (peer : P) :
    (role = .transferring → transferTo wit any self role busy c reps peer = (.ebusy, none)) ∧
    (role = .other → transferTo wit any self role busy c reps peer = (.eperm, none)) ∧
    (role = .leader → busy = true → transferTo wit any self role busy c reps peer = (.ebusy, none)) ∧
    (∀ q, (transferTo wit any self role busy c reps peer).2 = some q → (transferTo wit any self role busy c reps peer).1 = .ok) ∧
    ((transferTo wit any self role busy c reps peer).1 = .ok → (transferTo wit any self role busy c reps peer).2 = none →
      role = .leader ∧ busy = false ∧ (peer = self ∨ (peer = any ∧ findNext wit c reps = some self))) := by
  refine ⟨fun h => by subst h; rfl, fun h => by subst h; rfl, fun h h' => by subst h; subst h'; rfl, ?_, ?_⟩
  · intro q h
    unfold transferTo at h ⊢
    cases role with
    | transferring => cases h
    | other => cases h
    | leader =>
      cases busy with
      | true => simp at h
      | false =>
        simp only [Bool.false_eq_true, if_false] at h ⊢
        generalize (if peer = any then findNext wit c reps else some peer) = t at h ⊢
        cases t with
        | none => cases h
        | some x =>
          dsimp only at h ⊢
          split
          · rfl
          · rename_i h1
            rw [if_neg h1] at h
            split
            · rename_i h2; rw [if_pos h2] at h; cases h
            · rename_i h2
              rw [if_neg h2] at h
              split
              · rfl
              · rename_i h3; rw [if_neg h3] at h; cases h
  · intro h h'
    unfold transferTo at h h'
    cases role with
    | transferring => cases h
    | other => cases h
    | leader =>
      cases busy with
      | true => simp at h
      | false =>
        refine ⟨rfl, rfl, ?_⟩
        simp only [Bool.false_eq_true, if_false] at h h'
        by_cases ha : peer = any
        · rw [if_pos ha] at h h'
          cases ht : findNext wit c reps with
          | none => rw [ht] at h; cases h
          | some x =>
            rw [ht] at h h'
            dsimp only at h h'
            by_cases hx : x = self
            · right; exact ⟨ha, by rw [hx]⟩
            · exfalso
              rw [if_neg hx] at h h'
              split at h
              · cases h
              · rename_i h2
                rw [if_neg h2] at h'
                split at h
                · rename_i h3; rw [if_pos h3] at h'; cases h'
                · rename_i h3; exact h3 h
        · rw [if_neg ha] at h h'
          dsimp only at h h'
          by_cases hx : peer = self
          · exact Or.inl hx
          · exfalso
            rw [if_neg hx] at h h'
            split at h
            · cases h
            · rename_i h2
              rw [if_neg h2] at h'
              split at h
              · rename_i h3; rw [if_pos h3] at h'; cases h'
              · rename_i h3; exact h3 h

/-- C64. One transfer at a time, and a timer ends only the transfer it was started for: as long as the node has not stepped
down, the history of starts (true) and timeouts (false) is a list of pairs with the same peer, and at the end perhaps the
transfer that is going on. -/
theorem transfers_one_at_a_time {g : Group P} (h : GRun wit any self p T w g) (hr : g.role ≠ .other) : Paired g.target g.log :=
  h.inv.log hr

/-- C64. The node accepts no entries while a transfer is going on. -/
theorem no_entries_while_transferring {g g' : Group P} (h : GRun wit any self p T w g) (hs : GStep wit any self p T w g g')
    (hr : g.role = .transferring) : g'.r.last = g.r.last := by
  cases hs with
  | transferTo c reps peer =>
    unfold Group.transferTo
    rw [(transfer_codes g.role g.busy c reps peer).1 hr]
  | timeout x hx =>
    unfold Group.timeout
    dsimp only
    (repeat' split) <;> rfl
  | append k busy => unfold Group.append; rw [if_neg (by rw [hr]; intro h; cases h)]
  | stepDown del =>
    show g.r.stop.last = _
    unfold State.stop
    split
    · obtain ⟨c, x, e⟩ := notifyErr_eq g.r .perm
      rw [e]
    · rfl
  | returned q r e hq => exact (own_returned T w _ q r e).last
  | installed i ok e hi => exact (own_installed w _ i ok e).last
  | wake e => exact (own_wake w _ e).last
  | unblock => exact (own_unblock _).last
  | resume io => exact (own_resume w _ io).last
  | waitCaughtUp m => exact (own_waitCaughtUp _ m).last
  | catchTimeout => exact (own_catchTimeout _).last
  | compact snap first => exact (own_compact _ snap first).last

/-- A step of the replicator itself that sends TimeoutNow. -/
theorem own_timeout_now {g : Group P} (hi : GInv p T w g) {t : State} (hr : Run T w false t) (ho : Own g.r t)
    (hn : t.tnow ≠ g.r.tnow) : g.role = .transferring ∧ g.target = some p ∧ t.tnow = t.last :: g.r.tnow ∧ PeerHas t t.last := by
  rcases ho.now with ⟨h1, _⟩ | ⟨h1, h2, h3, _⟩
  · exact absurd h1 hn
  · obtain ⟨a, b, c⟩ := hi.tni h1 h2
    have e : t.tnow = t.last :: g.r.tnow := by rw [h3, c, ho.last]
    exact ⟨a, b, e, (C43_timeout_now_partial hr t.last (by rw [e]; exact List.mem_cons_self)).1⟩

/-- C43 for the whole node: when the replicator of `p` sends TimeoutNow for a transfer, the node is transferring its leadership to
`p`, and `p` has acknowledged the whole log of the leader as it is then. Missing: peers that leave readonly mode
(`readonly_breaks_transfer`). -/
theorem C43_whole_log_partial {g g' : Group P} (h : GRun wit any self p T w g) (hs : GStep wit any self p T w g g')
    (hn : g'.r.tnow ≠ g.r.tnow) :
    g'.role = .transferring ∧ g'.target = some p ∧ g'.r.tnow = g'.r.last :: g.r.tnow ∧ PeerHas g'.r g'.r.last := by
  have hi := h.inv
  have hi' := hi.step hs
  cases hs with
  | transferTo c reps peer =>
    have hrun := hi'.run
    unfold Group.transferTo at hn hrun ⊢
    cases hq : (transferTo wit any self g.role g.busy c reps peer).2 with
    | none => rw [hq] at hn; exact absurd rfl hn
    | some q =>
      rw [hq] at hn hrun
      dsimp only at hn hrun ⊢
      by_cases hp : q = p
      · rw [if_pos hp] at hn hrun ⊢
        have key : g.r.transfer.tnow = g.r.transfer.last :: g.r.tnow := by
          unfold State.transfer at hn ⊢
          split
          · rename_i h1; rw [if_pos h1] at hn; exact absurd rfl hn
          · rename_i h1
            rw [if_neg h1] at hn
            dsimp only at hn ⊢
            split
            · rfl
            · rename_i h2; rw [if_neg h2] at hn; exact absurd rfl hn
        refine ⟨rfl, by rw [hp], key, (C43_timeout_now_partial hrun _ ?_).1⟩
        rw [key]; exact List.mem_cons_self
      · rw [if_neg hp] at hn; exact absurd rfl hn
  | timeout x hx =>
    exfalso; apply hn
    unfold Group.timeout
    dsimp only
    split
    · split
      · split <;> rfl
      · split <;> rfl
    · rfl
  | append k busy => exfalso; apply hn; unfold Group.append; split <;> rfl
  | stepDown del =>
    exfalso; apply hn
    show g.r.stop.tnow = _
    unfold State.stop
    split
    · obtain ⟨c, x, e⟩ := notifyErr_eq g.r .perm
      rw [e]
    · rfl
  | returned q r e hq => exact own_timeout_now hi hi'.run (own_returned T w _ q r e) hn
  | installed i ok e hin => exact own_timeout_now hi hi'.run (own_installed w _ i ok e) hn
  | wake e => exact own_timeout_now hi hi'.run (own_wake w _ e) hn
  | unblock => exact own_timeout_now hi hi'.run (own_unblock _) hn
  | resume io => exact own_timeout_now hi hi'.run (own_resume w _ io) hn
  | waitCaughtUp m => exact own_timeout_now hi hi'.run (own_waitCaughtUp _ m) hn
  | catchTimeout => exact own_timeout_now hi hi'.run (own_catchTimeout _) hn
  | compact snap first => exact own_timeout_now hi hi'.run (own_compact _ snap first) hn

/-- A finding: ANY_PEER never chooses a witness (`candidate_is_best`), but a witness that is named is accepted
(and then leads without the data of the entries: `witness_leader_loses_data`). -/
theorem transfer_to_witness_accepted (c : Conf P) (q : P) (n : Nat) (hq : q ≠ self) (ha : q ≠ any) (hc : q ∈ c.conf) (hw : wit q = true) :
    transferTo wit any self .leader false c [⟨q, true, n, 0⟩] q = (.ok, some q) :=
  (transfer_started_iff .leader false c _ q q).2
    ⟨rfl, rfl, by rw [if_neg ha], hq, Or.inl hc, ⟨q, true, n, 0⟩, by simp, rfl, rfl⟩

/-! ### Examples -/

namespace TransferEx

def cf : Conf Nat := ⟨[1, 2, 3, 4], []⟩
def isW (n : Nat) : Bool := n == 4
def reps : List (Info Nat) := [⟨2, true, 7, 0⟩, ⟨3, true, 9, 0⟩, ⟨4, true, 11, 0⟩, ⟨5, true, 12, 0⟩]

/-- 3 is chosen: 4 is a witness, 5 is not in the configuration. -/
example : findNext isW cf reps = some 3 ∧ transferTo isW 0 1 .leader false cf reps 0 = (.ok, some 3) ∧
    transferTo isW 0 1 .leader false cf reps 2 = (.ok, some 2) ∧ transferTo isW 0 1 .leader false cf reps 5 = (.einval, none) ∧
    transferTo isW 0 1 .leader false cf reps 1 = (.ok, none) ∧
    transferTo isW 0 1 .leader false cf [⟨2, true, 7, 3⟩] 2 = (.ehostunreach, none) ∧
    transferTo isW 0 1 .leader false cf [⟨2, true, 7, 3⟩] 0 = (.fail, none) := by decide

open ReplEx

/-- Leader 1 of term 7 with last index 5 transfers to 2, which has not answered yet; the timer fires; it appends 3 entries, asks
again, and TimeoutNow is sent when 2 has acknowledged index 8. -/
def g0 : Group Nat := Group.init 7 [(6, 2)] ex1
def g1 : Group Nat := ((g0.append 0 false).transferTo isW 0 1 2 7 cf reps 2)
def g2 : Group Nat := (((g1.append 4 false).timeout 2 7 (7, 2)).append 3 false).transferTo isW 0 1 2 7 cf reps 2
def g3 : Group Nat := { g2 with r := g2.r.returned 7 false (rq 0 5 0) (.resp true 7 5) renv }
def g4 : Group Nat := { g3 with r := g3.r.returned 7 false (rq 1 5 3) (.resp true 7 8) renv }

theorem gr3 : GRun isW 0 1 2 7 false g3 := by
  have h0 : GRun isW 0 1 2 7 false g0 := GRun.start 1 5 0 .sent [(6, 2)] (by decide) (by decide) (by decide)
  have h1 : GRun isW 0 1 2 7 false g1 := (h0.step (.append _ _ _)).step (.transferTo _ _ _ _)
  have h2 : GRun isW 0 1 2 7 false g2 :=
    (((h1.step (.append _ _ _)).step (.timeout _ _ (by decide))).step (.append _ _ _)).step (.transferTo _ _ _ _)
  exact h2.step (.returned _ _ _ _ (by decide))

example : g1.role = .transferring ∧ g1.r.tni = 5 ∧ g1.timers = [(7, 2), (6, 2)] ∧ g2.r.last = 8 ∧
    GStep isW 0 1 2 7 false g3 g4 ∧ g3.r.tnow = [] ∧ g4.r.tnow = [8] ∧ g4.role = .transferring ∧
    g4.log = [(true, 2), (false, 2), (true, 2)] :=
  ⟨by decide, by decide, by decide, by decide, .returned _ _ _ _ (by decide), by decide, by decide, by decide, by decide⟩

end TransferEx

end Braft.Props
