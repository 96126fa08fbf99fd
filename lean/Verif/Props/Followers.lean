import Verif.Node.Followers
/-
C90: which followers `get_status` lists, and what it says of them.

`s` is the node when get_status looks at it, after any history; `rep p` is the replicator of `p` when get_status asks it, later:
it may be gone by then (`alive`). `F`: the peers for which add_replicator failed when the node became leader.
-/
set_option linter.unusedVariables false
set_option linter.unusedSectionVars false
set_option linter.unusedSimpArgs false

namespace Braft.Props.Followers
open Braft.ConfCtx Braft.Foll Braft.Props.Members
variable {P : Type} [DecidableEq P]

/-- `p` is listed, with these words. -/
def Lists (g : NodeStatus P) (p : P) (v : PeerStatus) : Prop := g.stable p = some v ∨ g.unstable p = some v

theorem get_eq (s : State P) (lead : Option P) (rep : P → Repl.State) (hr : s.repl ≠ []) (q : P) :
    (getStatus s lead rep .fresh).stable q = (if q ∈ s.conf ∧ q ≠ s.self then
      some (if q ∈ s.repl then peerStatus (rep q) .blank else .blank) else none) ∧
    (getStatus s lead rep .fresh).unstable q = (if q ∈ s.repl ∧ ¬ (q ∈ s.conf ∧ q ≠ s.self) then
      some (peerStatus (rep q) .blank) else none) := by
  unfold getStatus
  dsimp only
  have : s.repl.isEmpty = false := by
    cases h : s.repl with
    | nil => exact absurd h hr
    | cons a l => rfl
  rw [this]
  simp only [Bool.false_eq_true, if_false]
  generalize hst : (NodeStatus.mk _ _ _ : NodeStatus P) = st
  obtain ⟨_, h2, h3⟩ := addRepls_eq rep s.repl st q
  rw [h2, h3]
  subst hst
  simp only [addPeers_eq, NodeStatus.fresh, Option.getD_none]
  by_cases hm : q ∈ s.repl <;> by_cases hc : q ∈ s.conf ∧ q ≠ s.self <;> simp [hm, hc]

theorem get_nil (s : State P) (lead : Option P) (rep : P → Repl.State) (hr : s.repl = []) (q : P) :
    (getStatus s lead rep .fresh).stable q = none ∧ (getStatus s lead rep .fresh).unstable q = none := by
  unfold getStatus
  dsimp only
  rw [hr]
  exact ⟨rfl, rfl⟩

/-- C90: the stable followers of a leader are the other members of its configuration. -/
theorem C90_stable_partial {s : State P} (h : HistF (fun _ => False) s) (hl : Leads s) (lead : Option P) (rep : P → Repl.State)
    (p : P) : (∃ v, (getStatus s lead rep .fresh).stable p = some v) ↔ p ∈ s.conf ∧ p ≠ s.self := by
  by_cases hr : s.repl = []
  · rw [(get_nil s lead rep hr p).1]
    constructor
    · rintro ⟨v, hv⟩; cases hv
    · intro hp
      have := (members_fed_partial h hl p).1 ⟨hp.2, Or.inl hp.1⟩ id
      rw [hr] at this; cases this
  · rw [(get_eq s lead rep hr p).1]
    by_cases hc : p ∈ s.conf ∧ p ≠ s.self
    · rw [if_pos hc]; exact Iff.intro (fun _ => hc) (fun _ => Exists.intro _ rfl)
    · rw [if_neg hc]; exact Iff.intro (fun ⟨v, hv⟩ => (nomatch hv)) (fun h => absurd h hc)

/-- The same whatever add_replicator failed for, as long as one follower has a replicator. -/
theorem C90_stable {s : State P} (h : Hist s) (hl : Leads s) (hr : ∃ q, q ∈ s.repl) (lead : Option P) (rep : P → Repl.State)
    (p : P) : (∃ v, (getStatus s lead rep .fresh).stable p = some v) ↔ p ∈ s.conf ∧ p ≠ s.self := by
  obtain ⟨q, hq⟩ := hr
  have hne : s.repl ≠ [] := fun e => by rw [e] at hq; cases hq
  rw [(get_eq s lead rep hne p).1]
  by_cases hc : p ∈ s.conf ∧ p ≠ s.self
  · rw [if_pos hc]; exact Iff.intro (fun _ => hc) (fun _ => Exists.intro _ rfl)
  · rw [if_neg hc]; exact Iff.intro (fun ⟨v, hv⟩ => (nomatch hv)) (fun h => absurd h hc)

/-- C90: an unstable follower is not in the configuration, and a change is in progress that adds or removes it; the node leads. -/
theorem C90_unstable {s : State P} (h : Hist s) (lead : Option P) (rep : P → Repl.State) (p : P) (v : PeerStatus)
    (hu : (getStatus s lead rep .fresh).unstable p = some v) :
    Leads s ∧ p ∉ s.conf ∧ p ≠ s.self ∧ s.stage ≠ .none ∧ (p ∈ s.new ∨ p ∈ s.olds) := by
  by_cases hr : s.repl = []
  · rw [(get_nil s lead rep hr p).2] at hu; cases hu
  · rw [(get_eq s lead rep hr p).2] at hu
    split at hu
    · rename_i hc
      obtain ⟨h1, h2⟩ := only_members h p hc.1
      have h3 : p ∉ s.conf := fun hp => hc.2 ⟨hp, h1⟩
      rcases h2 with h2 | h2
      · exact absurd h2 h3
      · refine ⟨?_, h3, h1, h2.1, h2.2⟩
        by_cases hl : Leads s
        · exact hl
        · exact absurd (none_unless_leader h hl) hr
    · cases hu

/-- C90: a peer that is being added, and one that a change in two stages removes, is listed by the leader; in one map only. -/
theorem C90_changing_partial {s : State P} (h : HistF (fun _ => False) s) (hl : Leads s) (lead : Option P) (rep : P → Repl.State)
    (p : P) (hp : p ∈ s.new ∨ p ∈ s.old) (hs : p ≠ s.self) :
    (∃ v, Lists (getStatus s lead rep .fresh) p v) ∧
    ((getStatus s lead rep .fresh).stable p = none ∨ (getStatus s lead rep .fresh).unstable p = none) := by
  have hm : p ∈ s.repl := by
    rcases hp with hp | hp
    · exact (members_fed_partial h hl p).2 hp hs id
    · exact (members_fed_partial h hl p).1 ⟨hs, Or.inr hp⟩ id
  have hr : s.repl ≠ [] := fun e => by rw [e] at hm; cases hm
  obtain ⟨h1, h2⟩ := get_eq s lead rep hr p
  unfold Lists
  rw [h1, h2]
  by_cases hc : p ∈ s.conf ∧ p ≠ s.self
  · rw [if_pos hc, if_neg (c := p ∈ s.repl ∧ ¬(p ∈ s.conf ∧ p ≠ s.self)) (fun h => h.2 hc)]
    exact ⟨⟨_, Or.inl rfl⟩, Or.inr rfl⟩
  · rw [if_neg hc, if_pos ⟨hm, hc⟩]
    exact ⟨⟨_, Or.inr rfl⟩, Or.inl rfl⟩

/-- C90: a node that does not lead lists nobody. -/
theorem C90_not_leader {s : State P} (h : Hist s) (hl : ¬ Leads s) (lead : Option P) (rep : P → Repl.State) (p : P) (v : PeerStatus) :
    ¬ Lists (getStatus s lead rep .fresh) p v := by
  obtain ⟨h1, h2⟩ := get_nil s lead rep (none_unless_leader h hl) p
  unfold Lists
  rw [h1, h2]
  rintro (h | h) <;> cases h

/-- C90: leader_id of a leader is itself, of a follower the leader it knows; a candidate and a node that is down name none. -/
theorem C90_leader_id {s : State P} (lead : Option P) (rep : P → Repl.State) :
    (Leads s → (getStatus s lead rep .fresh).leader = some s.self) ∧
    (s.role = .follower → (getStatus s lead rep .fresh).leader = lead) ∧
    (s.role = .candidate ∨ s.role = .down → (getStatus s lead rep .fresh).leader = none) := by
  have e : (getStatus s lead rep .fresh).leader = match s.role with
      | .leader => some s.self
      | .transferring => some s.self
      | .follower => lead
      | _ => none := by
    unfold getStatus
    dsimp only
    split
    · cases s.role <;> rfl
    · exact (addRepls_eq rep s.repl _ s.self).1.trans (by cases s.role <;> rfl)
  rw [e]
  refine ⟨?_, ?_, ?_⟩
  · rintro (h | h) <;> rw [h]
  · intro h; rw [h]
  · rintro (h | h) <;> rw [h]

/-- C90: an entry is valid exactly if the peer had a replicator, and it was still there when it was asked; the others are blank. -/
theorem C90_valid {s : State P} (lead : Option P) (rep : P → Repl.State) (p : P) (v : PeerStatus)
    (h : Lists (getStatus s lead rep .fresh) p v) :
    (v.valid = true ↔ p ∈ s.repl ∧ (rep p).alive = true) ∧ (v.valid = false → v = .blank) := by
  by_cases hr : s.repl = []
  · obtain ⟨h1, h2⟩ := get_nil s lead rep hr p
    unfold Lists at h
    rw [h1, h2] at h
    rcases h with h | h <;> cases h
  · have hv : v = (if p ∈ s.repl then peerStatus (rep p) .blank else .blank) := by
      obtain ⟨h1, h2⟩ := get_eq s lead rep hr p
      unfold Lists at h
      rw [h1, h2] at h
      rcases h with h | h <;> split at h
      · cases h; rfl
      · cases h
      · rename_i hc; cases h; rw [if_pos hc.1]
      · cases h
    subst hv
    unfold peerStatus
    by_cases hm : p ∈ s.repl <;> cases ha : (rep p).alive <;> simp [hm, PeerStatus.blank]

theorem chain_bounds {a b : Nat} {l : List Repl.Fly} (h : Repl.Chain a l b) : ∀ f ∈ l, a ≤ f.first ∧ f.first + f.size ≤ b := by
  induction l generalizing a with
  | nil => intro f hf; cases hf
  | cons r l ih =>
    intro f hf
    have h : r.first = a ∧ Repl.Chain (a + r.size) l b := h
    have hs := h.2.sum
    rcases List.mem_cons.mp hf with h1 | h1
    · subst h1; omega
    · have := ih h.2 f h1; omega

/-- C90: what a valid entry says. The next index is at least 1 and at most one above the last; so many entries below it are in
flight, all of them in the log; nothing is in flight while the replicator is blocked or installs a snapshot, and it does not do both;
and once the peer has answered, it has all before them. -/
theorem C90_entry_partial {s : State P} (lead : Option P) (rep : P → Repl.State) (p : P) (v : PeerStatus)
    (h : Lists (getStatus s lead rep .fresh) p v) (hv : v.valid = true) {T : Nat} {w : Bool} (hrun : Repl.Run T w false (rep p)) :
    1 ≤ v.nextIndex ∧ v.nextIndex ≤ (rep p).last + 1 ∧ v.flying < v.nextIndex ∧
    v.flying = ((rep p).fly.map Repl.Fly.size).sum ∧
    (∀ f ∈ (rep p).fly, v.nextIndex - v.flying ≤ f.first ∧ f.first + f.size ≤ v.nextIndex) ∧
    (v.blocking = true ∨ v.installing = true → (rep p).fly = [] ∧ v.flying = 0) ∧ ¬ (v.blocking = true ∧ v.installing = true) ∧
    ((rep p).installs ≠ [] → v.installing = true) ∧
    ((rep p).hasSucc = true → PeerHas (rep p) (v.nextIndex - v.flying - 1)) := by
  have hval := (C90_valid lead rep p v h).1.mp hv
  have hr : s.repl ≠ [] := fun e => by rw [e] at hval; cases hval.1
  have he : v = ⟨true, decide ((rep p).st = .installing), decide ((rep p).st = .blocking), (rep p).next, (rep p).flying⟩ := by
    obtain ⟨h1, h2⟩ := get_eq s lead rep hr p
    unfold Lists at h
    rw [h1, h2, if_pos hval.1] at h
    unfold peerStatus at h
    rw [if_pos hval.2] at h
    rcases h with h | h <;> split at h
    · cases h; rfl
    · cases h
    · cases h; rfl
    · cases h
  subst he
  generalize rep p = r at hrun hval
  have hi := hrun.inv
  have hmin := Repl.State.min_eq hi
  have hm0 := hi.min0
  have hn := hi.next1
  refine ⟨by dsimp only; omega, hn, by dsimp only; omega, hi.flying_eq, ?_, ?_, ?_, ?_, ?_⟩
  · intro f hf
    exact chain_bounds hi.chain f hf
  · intro hb
    have hfl : r.fly = [] := by
      cases hf : r.fly with
      | nil => rfl
      | cons a l =>
        have := (hi.fly (by rw [hf]; simp)).1
        dsimp only at hb
        rw [this] at hb
        simp at hb
    exact ⟨hfl, (hi.flying_nil hfl).1⟩
  · dsimp only
    rintro ⟨h1, h2⟩
    simp only [decide_eq_true_eq] at h1 h2
    rw [h1] at h2
    cases h2
  · intro hin
    have := (hi.inst hin).2.2.1
    dsimp only
    rw [this]; decide
  · intro hs
    exact hi.succ hs

/-! ### The hypotheses are met -/

/-- The replicator of `ex_run`. -/
def rep8 : Nat → Repl.State := fun _ => ReplEx.ex8

example : HistF (fun _ => False) r1 ∧ Leads r1 ∧
    (getStatus r1 none rep8 .fresh).stable 2 = some ⟨true, false, false, 9, 0⟩ ∧ (getStatus r1 none rep8 .fresh).stable 1 = none ∧
    (getStatus r1 none rep8 .fresh).stable 4 = none ∧ (getStatus r1 none rep8 .fresh).unstable 4 = some ⟨true, false, false, 9, 0⟩ ∧
    (getStatus r1 none rep8 .fresh).leader = some 1 :=
  ⟨r1_hist _, Or.inl (by decide), by decide, by decide, by decide, by decide, by decide⟩
/-- In the joint stage the old members are unstable. -/
example : HistF (fun _ => False) r2 ∧ Leads r2 ∧ (getStatus r2 none rep8 .fresh).unstable 2 = some ⟨true, false, false, 9, 0⟩ ∧
    ((getStatus r2 none rep8 .fresh).stable 4).isSome = true ∧ 2 ∈ r2.old :=
  ⟨r2_hist _, Or.inl (by decide), by decide, by decide, by decide⟩
example : Hist (r3.stepDown 9) ∧ ¬ Leads (r3.stepDown 9) := ⟨(r3_hist (fun _ => False)).hist.stepDown 9, by unfold Leads; decide⟩
example : ∃ T w, Repl.Run T w false (rep8 2) ∧ (rep8 2).hasSucc = true ∧ (rep8 2).alive = true := ⟨7, false, ReplEx.ex_run, by decide, by decide⟩
/-- Five entries from 4 on are in flight in two requests. -/
example : ReplEx.ex6.fly.map Repl.Fly.size = [2, 3] ∧ ReplEx.ex6.next - ReplEx.ex6.flying = 4 ∧ ReplEx.ex6.flying = 5 := by decide

/-! ### What does not hold -/

/-- C90 is false for a NodeStatus that is passed a second time: nothing is cleared. A node that led and stepped down lists the followers
it had, as valid; when it stands for election it still names itself the leader. -/
theorem C90_reused_violated : ∃ s : State Nat, Hist s ∧ ¬ Leads s ∧ s.role = .candidate ∧
    let before := getStatus r3 none rep8 .fresh
    (getStatus s none rep8 before).stable 4 = some ⟨true, false, false, 9, 0⟩ ∧ (getStatus s none rep8 before).leader = some 1 :=
  ⟨(r3.stepDown 9).elect, ((r3_hist (fun _ => False)).hist.stepDown 9).elect, by unfold Leads; decide, by decide, by decide, by decide⟩

/-- C90 is false if add_replicator failed when the node became leader: without any replicator it lists none of the other members. -/
theorem C90_no_replicator_violated : ∃ s : State Nat, Hist s ∧ Leads s ∧ s.conf = [1, 2, 3] ∧
    ∀ lead rep p, ¬ ∃ v, Lists (getStatus s lead rep .fresh) p v := by
  refine ⟨((State.init 1 4 [1, 2, 3] []).elect.becomeLeader (fun _ => false) true).entryDone 0 true true,
    ((HistF.init (F := fun _ => True) 1 4 [1, 2, 3] [] (by decide)).elect.becomeLeader _ (fun _ _ => trivial) _).entryDone 0 true true
      |>.hist, Or.inl (by decide), by decide, ?_⟩
  intro lead rep p hv
  obtain ⟨v, hv⟩ := hv
  obtain ⟨h1, h2⟩ := get_nil (((State.init 1 4 [1, 2, 3] []).elect.becomeLeader (fun _ => false) true).entryDone 0 true true) lead rep
    (by decide) p
  unfold Lists at hv
  rw [h1, h2] at hv
  rcases hv with h | h <;> cases h

/-- The next index is a guess until the peer has answered, and nothing in the entry tells: here the leader lists a follower that has
nothing with next index 6 and nothing in flight. -/
theorem C90_guess_violated : ∃ r, Repl.Run 7 false false r ∧ (peerStatus r .blank) = ⟨true, false, false, 6, 0⟩ ∧ ¬ PeerHas r 5 := by
  refine ⟨Repl.State.start 1 5 0 false .sent, Repl.Run.start 1 5 0 .sent (by decide) (by decide) (by decide), by decide, ?_⟩
  unfold PeerHas
  have h1 : (Repl.State.start 1 5 0 false .sent).acks = [] := by decide
  have h2 : (Repl.State.start 1 5 0 false .sent).snaps = [] := by decide
  rw [h1, h2]
  rintro (h | ⟨q, hq, _⟩ | ⟨q, hq, _⟩)
  · cases h
  · cases hq
  · cases hq

end Braft.Props.Followers
