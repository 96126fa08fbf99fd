import Verif.BallotBox
import Verif.Lease
/-
Pre-vote, both sides: node.cpp:2109-2174 (`handle_pre_vote_request`), node.cpp:1065-1090 and
1616-1677 (`handle_election_timeout`, `pre_vote`), node.cpp:1503-1580
(`handle_pre_vote_response`), node.cpp:3478-3605 (`VoteBallotCtx`, `grant_self`,
`handle_grant_self_timedout`), with what `elect_self` (1680-1708), `step_down` (1791-1832) and
`shutdown` (996-1009) do to the same fields.

A log is represented by its last log id (term, index). The lease clock is an argument.
-/
set_option linter.unusedSectionVars false
set_option linter.unusedSimpArgs false
set_option linter.unusedVariables false

namespace Braft
namespace PreVote
open Lease
universe u

/-- node.h `State`; `shutting` also stands for STATE_ERROR, UNINITIALIZED and SHUTDOWN, the states
that are not active (node.h `is_active_state`). -/
inductive Role | leader | transferring | candidate | follower | shutting
deriving DecidableEq, Repr

def Role.active : Role → Bool
  | .shutting => false
  | _ => true

/-- raft.proto RequestVoteResponse -/
structure Resp where
  term : Nat
  granted : Bool
  byLease : Bool
  disrupted : Bool
  prevTerm : Nat
deriving DecidableEq, Repr

/-- raft.proto RequestVoteRequest as used by pre_vote; `cand = none`: server_id does not parse. -/
structure Req (P : Type) where
  cand : Option P
  term : Nat
  lastId : Nat × Nat
deriving DecidableEq, Repr

/-- log_entry.h:64-90: order on LogIds (term, index), terms first. -/
def idGe (a b : Nat × Nat) : Bool := decide (b.1 < a.1) || (decide (a.1 = b.1) && decide (b.2 ≤ a.2))

/-- node.h:270-310 `VoteBallotCtx`; `disrupted = none` is `DisruptedLeader()` (term -1). -/
structure Ctx (P : Type) where
  version : Nat := 0
  triggered : Bool := false
  ballot : Ballot P
  reserved : List P := []
  disrupted : Option (P × Nat) := none

/-- Ghost: what happened since the ballot was last initialised. -/
structure Ghost (P : Type) where
  conf : List P := []
  old : Option (List P) := none
  triggered : Bool := false
  answers : List (P × Resp) := []
  selfOk : Bool := false

/-- The fields involved. `frames`: pre_vote calls that released the mutex (line 1636);
`sent`: (peer, term, ctx version) of requests in flight; `timers`: versions of armed timers. -/
structure Node (P : Type) where
  self : P
  term : Nat
  vote : Option P
  role : Role
  lastId : Nat × Nat
  lease : Follower P
  conf : List P
  old : List P
  ctx : Ctx P
  frames : List (Nat × Bool) := []
  sent : List (P × Nat × Nat) := []
  timers : List Nat := []
  g : Ghost P := {}

variable {P : Type} [DecidableEq P]

/-! ### The voter -/

/-- Result of the first critical section of `handle_pre_vote_request`. -/
inductive Phase1 | einval | refused (r : Resp) | readLog
deriving DecidableEq, Repr

/-- node.cpp:2168-2172 -/
def reply (n : Node P) (granted byLease : Bool) : Resp :=
  ⟨n.term, granted, byLease, decide (n.role = .leader), n.term⟩

/-- node.cpp:2111-2145, up to the unlock. -/
def request1 (n : Node P) (q : Req P) : Node P × Phase1 :=
  if !n.role.active then (n, .einval)
  else match q.cand with
    | none => (n, .einval)
    | some _ => if q.term < n.term then (n, .refused (reply n false false)) else (n, .readLog)

/-- node.cpp:2146-2173, after `last_log_id(true)` returned `last` and the mutex is held again. -/
def request2 (enabled : Bool) (n : Node P) (q : Req P) (last : Nat × Nat) (now : Nat) :
    Node P × Resp :=
  let votable := n.lease.votable enabled now
  let grantable := idGe q.lastId last
  (n, if grantable then reply n (votable == 0) (decide (votable > 0)) else reply n false false)

/-! ### The candidate -/

/-- node.cpp:3516-3523 `VoteBallotCtx::reset` -/
def ctxReset (n : Node P) : Node P :=
  { n with ctx := { n.ctx with version := n.ctx.version + 1, triggered := false,
                               reserved := [], disrupted := none },
           timers := [] }

/-- node.cpp:3478-3482 `VoteBallotCtx::init` -/
def ctxInit (n : Node P) (triggered : Bool) : Node P :=
  let n1 := ctxReset n
  let old := if n.old.isEmpty then none else some n.old
  { n1 with ctx := { n1.ctx with ballot := Ballot.init n.conf old, triggered := triggered },
            g := ⟨n.conf, old, triggered, [], false⟩ }

/-- `_pre_vote_ctx.grant(p)` -/
def ctxGrant (n : Node P) (p : P) : Node P := { n with ctx := { n.ctx with ballot := n.ctx.ballot.grant p } }

/-- node.cpp:1680-1708 `elect_self`, its effect on these fields (1684: refused unless a member).
The result says whether the election started. -/
def electSelf (n : Node P) : Node P × Bool :=
  if n.self ∈ n.conf ∨ n.self ∈ n.old then
    (ctxReset { n with role := .candidate, term := n.term + 1, vote := some n.self }, true)
  else (n, false)

/-- node.cpp:3547-3569 `grant_self(&_pre_vote_ctx)`. -/
def grantSelf (enabled : Bool) (n : Node P) (now : Nat) : Node P × Bool :=
  if n.lease.votable enabled now = 0 then
    let n1 := ctxGrant { n with g := { n.g with selfOk := decide (n.lease.votable enabled now = 0) } } n.self
    if n1.ctx.ballot.granted then electSelf n1 else (n1, false)
  else ({ n with timers := n.ctx.version :: n.timers }, false)

/-- node.cpp:1634-1677 `pre_vote` after the mutex is held again (only the term is compared). -/
def resume (enabled : Bool) (n : Node P) (old_term : Nat) (triggered : Bool) (now : Nat) :
    Node P × Bool :=
  if old_term ≠ n.term then (n, false)
  else
    let n1 := ctxInit n triggered
    let peers := (n1.conf ++ n1.old).filter (· ≠ n1.self)
    let n2 := { n1 with sent := peers.map (fun p => (p, n1.term, n1.ctx.version)) ++ n1.sent }
    grantSelf enabled n2 now

/-- node.cpp:1565-1576: counting a list of supporters. -/
def grantList (n : Node P) : List P → Node P
  | [] => n
  | p :: ps =>
    let n1 := ctxGrant n p
    let n2 := if n.lease.lastLeader = some p then
        let m := ctxGrant { n1 with g := { n1.g with selfOk := true } } n1.self
        { m with timers := [] }
      else n1
    grantList n2 ps

/-- node.cpp:1791-1850 `step_down(term)`: a follower's pre-vote context is reset (1807). -/
def stepDown (n : Node P) (term : Nat) : Node P :=
  if !n.role.active then n
  else
    let n1 := if n.role = .follower then ctxReset n else n
    if n1.term < term then { n1 with role := .follower, term := term, vote := none }
    else { n1 with role := .follower }

/-- node.cpp:3535-3541 `pop_grantable_peers` and 3525-3531. -/
def popGrantable (n : Node P) : Node P × List P :=
  match n.ctx.disrupted with
  | none => (n, [])
  | some _ => ({ n with ctx := { n.ctx with reserved := [] } }, n.ctx.reserved)

/-- node.cpp:1503-1580 `handle_pre_vote_response` -/
def response (n : Node P) (peer : P) (term ver : Nat) (r : Resp) : Node P × Bool :=
  if ver ≠ n.ctx.version then (n, false)
  else if n.role ≠ .follower then (n, false)
  else if term ≠ n.term then (n, false)
  else if n.term < r.term then (stepDown n r.term, false)
  else if !r.granted && !r.byLease then (n, false)
  else if r.byLease && !n.ctx.triggered then (n, false)
  else
    let n0 := { n with g := { n.g with answers := (peer, r) :: n.g.answers } }
    let n1 := if r.disrupted then
        { n0 with ctx := { n0.ctx with disrupted := some (peer, r.prevTerm) } } else n0
    let n4 := if r.byLease then
        let n2 := { n1 with ctx := { n1.ctx with reserved := peer :: n1.ctx.reserved } }
        let (n3, ps) := popGrantable n2
        grantList n3 ps
      else
        let (n3, ps) := popGrantable n1
        grantList n3 (ps ++ [peer])
    if n4.ctx.ballot.granted then electSelf n4 else (n4, false)

/-- Everything that touches these fields, each under the node mutex. -/
inductive Op (P : Type)
  | timeout (triggered : Bool)                    -- handle_election_timeout .. unlock in pre_vote
  | resume (i : Nat) (now : Nat)                  -- the i-th waiting pre_vote goes on
  | answer (peer : P) (term ver : Nat) (r : Resp) (now : Nat)
  | selfTimer (ver now : Nat)                     -- handle_grant_self_timedout
  | stepDown (term : Nat)
  | leaderSeen (p : P) (now : Nat)                -- reset_leader_id(new leader), lease renewed
  | setConf (conf old : List P)
  | append (id : Nat × Nat)
  | becomeLeader
  | voteRequest (cand : P) (term : Nat)           -- a granted RequestVote of this or a newer term
  | preVoteRequest (q : Req P) (now : Nat)
  | shutdown
deriving DecidableEq, Repr

/-- One step; the Boolean says that `elect_self` started an election from the pre-vote path. -/
def step (enabled : Bool) (n : Node P) : Op P → Option (Node P × Bool)
  | .timeout tr =>
    if n.role = .follower ∧ (n.self ∈ n.conf ∨ n.self ∈ n.old) then
      some ({ n with frames := n.frames ++ [(n.term, tr)] }, false)
    else none
  | .resume i now => match n.frames[i]? with
    | none => none
    | some (t, tr) => some (resume enabled { n with frames := n.frames.eraseIdx i } t tr now)
  | .answer p t v r now => if (p, t, v) ∈ n.sent then some (response n p t v r) else none
  | .selfTimer v now =>
    if v ∈ n.timers then
      if n.role.active ∧ n.ctx.version = v then some (grantSelf enabled n now) else some (n, false)
    else none
  | .stepDown t => some (stepDown n t, false)
  | .leaderSeen p now => if n.role = .follower then
      some (ctxReset { n with lease := n.lease.renew p now }, false) else none
  | .setConf c o => some ({ n with conf := c, old := o }, false)
  | .append id => some ({ n with lastId := id }, false)
  | .becomeLeader => if n.role = .candidate then
      some ({ n with role := .leader, lease := n.lease.reset }, false) else none
  | .voteRequest c t => if n.term ≤ t ∧ n.role.active then
      some (if (stepDown n t).vote = none then { stepDown n t with vote := some c } else stepDown n t, false)
      else none
  | .preVoteRequest q now =>
    match request1 n q with
    | (n', .readLog) => some ((request2 enabled n' q n'.lastId now).1, false)
    | (n', _) => some (n', false)
  | .shutdown => some ({ stepDown n n.term with role := .shutting }, false)

/-- The elections started from the pre-vote path go through `electSelf` on a node with the same term, members
and name. -/
theorem electSelf_elected {n : Node P} (h : (electSelf n).2 = true) :
    (n.self ∈ n.conf ∨ n.self ∈ n.old) ∧ (electSelf n).1.role = .candidate ∧
      (electSelf n).1.term = n.term + 1 ∧ (electSelf n).1.vote = some n.self ∧ (electSelf n).1.self = n.self := by
  unfold electSelf at *
  by_cases hm : n.self ∈ n.conf ∨ n.self ∈ n.old
  · rw [if_pos hm]; exact ⟨hm, rfl, rfl, rfl, rfl⟩
  · rw [if_neg hm] at h; cases h

def run (enabled : Bool) (n : Node P) : List (Op P) → Option (Node P)
  | [] => some n
  | o :: os => match step enabled n o with
    | none => none
    | some (n', _) => run enabled n' os

/-! ### Specification and invariant -/

/-- Specification: who supports the election, judged only by what happened since this pre-vote
round began. A peer supports it if it answered granted, or it would have but for its lease, in a
round triggered by the user in which the leader itself agreed to be disrupted; the node supports
itself if its own lease expired or the leader it followed supports it. -/
def Supports (self : P) (g : Ghost P) (p : P) : Bool :=
  g.answers.any (fun a => decide (a.1 = p) && a.2.granted) ||
  (g.triggered && g.answers.any (fun a => decide (a.1 = p) && a.2.byLease) &&
    g.answers.any (fun a => a.2.disrupted)) ||
  (decide (p = self) && g.selfOk)

/-- Invariant of a live round. -/
structure Live (n : Node P) : Prop where
  nd : n.g.conf.Nodup
  ndo : ∀ oc, n.g.old = some oc → oc.Nodup
  bal : ∃ S, Ballot.Inv n.g.conf n.g.old S n.ctx.ballot ∧ ∀ p, S p = true → Supports n.self n.g p = true
  trig : n.ctx.triggered = n.g.triggered
  res : ∀ p ∈ n.ctx.reserved, n.g.triggered = true ∧ ∃ r, (p, r) ∈ n.g.answers ∧ r.byLease = true
  dis : n.ctx.disrupted ≠ none → ∃ a ∈ n.g.answers, a.2.disrupted = true

/-- Invariant of every reachable state: requests and timers carry versions up to the current one,
and if any carries the current one, the round is live. -/
structure Inv (n : Node P) : Prop where
  cnd : n.conf.Nodup
  ond : n.old.Nodup
  sentLe : ∀ x ∈ n.sent, x.2.2 ≤ n.ctx.version
  timLe : ∀ v ∈ n.timers, v ≤ n.ctx.version
  live : (∃ x ∈ n.sent, x.2.2 = n.ctx.version) ∨ n.ctx.version ∈ n.timers → Live n

theorem supports_mono_answer {self : P} {g : Ghost P} {a : P × Resp} {p : P}
    (h : Supports self g p = true) : Supports self { g with answers := a :: g.answers } p = true := by
  unfold Supports at *
  simp only [Bool.or_eq_true, Bool.and_eq_true, List.any_cons] at *
  rcases h with (h | h) | h
  · exact Or.inl (Or.inl (Or.inr h))
  · exact Or.inl (Or.inr ⟨⟨h.1.1, Or.inr h.1.2⟩, Or.inr h.2⟩)
  · exact Or.inr h

theorem supports_mono_self {self : P} {g : Ghost P} {p : P}
    (h : Supports self g p = true) : Supports self { g with selfOk := true } p = true := by
  unfold Supports at *
  simp only [Bool.or_eq_true, Bool.and_eq_true] at *
  rcases h with h | h
  · exact Or.inl h
  · exact Or.inr ⟨h.1, trivial⟩

theorem live_grant {n : Node P} (h : Live n) (p : P) (hp : Supports n.self n.g p = true) :
    Live (ctxGrant n p) := by
  obtain ⟨S, hS, hs⟩ := h.bal
  refine ⟨h.nd, h.ndo, ⟨_, Ballot.inv_grantHint h.nd h.ndo hS p {}, ?_⟩, h.trig, h.res, h.dis⟩
  intro q hq
  simp only [Bool.or_eq_true, beq_iff_eq] at hq
  rcases hq with hq | rfl
  · exact hs q hq
  · exact hp

theorem live_selfOk {n : Node P} (h : Live n) : Live { n with g := { n.g with selfOk := true } } := by
  obtain ⟨S, hS, hs⟩ := h.bal
  exact ⟨h.nd, h.ndo, ⟨S, hS, fun p hp => supports_mono_self (hs p hp)⟩, h.trig, h.res, h.dis⟩

theorem supports_self {self : P} {g : Ghost P} (h : g.selfOk = true) : Supports self g self = true := by
  unfold Supports; simp [h]

/-- Fields untouched by granting. -/
def SameBase (n m : Node P) : Prop :=
  n.self = m.self ∧ n.term = m.term ∧ n.vote = m.vote ∧ n.role = m.role ∧ n.lastId = m.lastId ∧
  n.conf = m.conf ∧ n.old = m.old ∧ n.sent = m.sent ∧ n.ctx.version = m.ctx.version ∧
  n.lease = m.lease ∧ n.frames = m.frames

theorem grantList_base (ps : List P) (n : Node P) :
    SameBase (grantList n ps) n ∧ (∀ v ∈ (grantList n ps).timers, v ∈ n.timers) := by
  induction ps generalizing n with
  | nil => exact ⟨⟨rfl, rfl, rfl, rfl, rfl, rfl, rfl, rfl, rfl, rfl, rfl⟩, fun v h => h⟩
  | cons p ps ih =>
    unfold grantList
    by_cases hl : n.lease.lastLeader = some p
    · simp only [hl, if_true]
      obtain ⟨a, b⟩ := ih { ctxGrant { ctxGrant n p with g := { (ctxGrant n p).g with selfOk := true } }
        (ctxGrant n p).self with timers := [] }
      exact ⟨a, fun v hv => by have := b v hv; simp at this⟩
    · simp only [hl, if_false]
      obtain ⟨a, b⟩ := ih (ctxGrant n p)
      exact ⟨a, b⟩

theorem grantList_live (ps : List P) (n : Node P) (h : Live n)
    (hp : ∀ p ∈ ps, Supports n.self n.g p = true) : Live (grantList n ps) := by
  induction ps generalizing n with
  | nil => exact h
  | cons p ps ih =>
    unfold grantList
    have h1 := live_grant h p (hp p (List.mem_cons_self ..))
    by_cases hl : n.lease.lastLeader = some p
    · simp only [hl, if_true]
      have h2 := live_grant (live_selfOk h1) (ctxGrant n p).self (supports_self rfl)
      have h3 : Live { ctxGrant { ctxGrant n p with g := { (ctxGrant n p).g with selfOk := true } }
        (ctxGrant n p).self with timers := [] } :=
        ⟨h2.nd, h2.ndo, h2.bal, h2.trig, h2.res, h2.dis⟩
      exact ih _ h3 (fun q hq => supports_mono_self (hp q (List.mem_cons_of_mem _ hq)))
    · simp only [hl, if_false]
      exact ih _ h1 (fun q hq => hp q (List.mem_cons_of_mem _ hq))

theorem inv_reset {n : Node P} (h : Inv n) : Inv (ctxReset n) := by
  refine ⟨h.cnd, h.ond, ?_, ?_, ?_⟩
  · intro x hx; exact Nat.le_succ_of_le (h.sentLe x hx)
  · intro v hv; simp [ctxReset] at hv
  · rintro (⟨x, hx, he⟩ | hv)
    · have := h.sentLe x hx
      have he' : x.2.2 = n.ctx.version + 1 := he
      omega
    · simp [ctxReset] at hv

/-- Changing only term, vote and role keeps the invariant. -/
theorem inv_base {n : Node P} (h : Inv n) (t : Nat) (v : Option P) (r : Role) (l : Follower P)
    (id : Nat × Nat) (fr : List (Nat × Bool)) :
    Inv { n with term := t, vote := v, role := r, lease := l, lastId := id, frames := fr } := by
  refine ⟨h.cnd, h.ond, h.sentLe, h.timLe, ?_⟩
  intro hx
  have := h.live hx
  exact ⟨this.nd, this.ndo, this.bal, this.trig, this.res, this.dis⟩

theorem inv_stepDown {n : Node P} (h : Inv n) (t : Nat) : Inv (stepDown n t) := by
  unfold stepDown
  by_cases ha : (!n.role.active) = true
  · rw [if_pos ha]; exact h
  · rw [if_neg ha]
    have h1 : Inv (if n.role = .follower then ctxReset n else n) := by
      split
      · exact inv_reset h
      · exact h
    generalize (if n.role = .follower then ctxReset n else n) = m at *
    dsimp only
    split
    · exact inv_base h1 t none .follower m.lease m.lastId m.frames
    · exact inv_base h1 m.term m.vote .follower m.lease m.lastId m.frames

theorem inv_electSelf {n : Node P} (h : Inv n) : Inv (electSelf n).1 := by
  unfold electSelf
  split
  · exact inv_reset (inv_base h (n.term + 1) (some n.self) .candidate n.lease n.lastId n.frames)
  · exact h

/-- The quorum behind an election. -/
theorem quorum_of_live {n : Node P} (h : Live n) (hg : n.ctx.ballot.granted = true) :
    IsQuorum n.g.conf n.g.old (Supports n.self n.g) := by
  obtain ⟨S, hS, hs⟩ := h.bal
  have hq := (Ballot.inv_granted_iff hS).mp hg
  exact BallotBox.IsQuorum.mono hq (fun p => hs p)

/-- What is known when a step elects. -/
def Elected (n' : Node P) : Prop :=
  IsQuorum n'.g.conf n'.g.old (Supports n'.self n'.g)

theorem elect_post {n : Node P} (hi : Inv n) (hl : Live n) (hg : n.ctx.ballot.granted = true) :
    Inv (electSelf n).1 ∧ ((electSelf n).2 = true → Elected (electSelf n).1) := by
  refine ⟨inv_electSelf hi, fun he => ?_⟩
  have hq := quorum_of_live hl hg
  unfold electSelf at he ⊢
  split at he
  · next hc => rw [if_pos hc]; exact hq
  · simp at he

theorem grantSelf_post {enabled : Bool} {n : Node P} {now : Nat} (hi : Inv n) (hl : Live n) :
    Inv (grantSelf enabled n now).1 ∧
      ((grantSelf enabled n now).2 = true → Elected (grantSelf enabled n now).1) := by
  unfold grantSelf
  split
  · rename_i hv
    rw [decide_eq_true hv]
    have hl1 : Live (ctxGrant { n with g := { n.g with selfOk := true } } n.self) :=
      live_grant (live_selfOk hl) n.self (supports_self rfl)
    have hi1 : Inv (ctxGrant { n with g := { n.g with selfOk := true } } n.self) :=
      ⟨hi.cnd, hi.ond, hi.sentLe, hi.timLe, fun _ => hl1⟩
    dsimp only
    split
    · next hg => exact elect_post hi1 hl1 hg
    · exact ⟨hi1, fun h => by simp at h⟩
  · refine ⟨⟨hi.cnd, hi.ond, hi.sentLe, ?_, ?_⟩, fun h => by simp at h⟩
    · intro v hv
      rcases List.mem_cons.mp hv with rfl | hv
      · exact Nat.le_refl _
      · exact hi.timLe v hv
    · intro _; exact ⟨hl.nd, hl.ndo, hl.bal, hl.trig, hl.res, hl.dis⟩

theorem live_init {n : Node P} (hc : n.conf.Nodup) (ho : n.old.Nodup) (tr : Bool) :
    Live (ctxInit n tr) := by
  refine ⟨hc, ?_, ⟨_, Ballot.inv_init _ _, ?_⟩, rfl, ?_, ?_⟩
  · intro oc h
    simp only [ctxInit] at h
    split at h
    · simp at h
    · simp only [Option.some.injEq] at h; subst h; exact ho
  · intro p hp; simp at hp
  · intro p hp; simp [ctxInit, ctxReset] at hp
  · intro hd; simp [ctxInit, ctxReset] at hd

theorem resume_post {enabled : Bool} {n : Node P} {t : Nat} {tr : Bool} {now : Nat} (hi : Inv n) :
    Inv (resume enabled n t tr now).1 ∧
      ((resume enabled n t tr now).2 = true → Elected (resume enabled n t tr now).1) := by
  unfold resume
  split
  · exact ⟨hi, fun h => by simp at h⟩
  · dsimp only
    have hl := live_init (n := n) hi.cnd hi.ond tr
    refine grantSelf_post ?_ ?_
    · refine ⟨hi.cnd, hi.ond, ?_, ?_, ?_⟩
      · intro x hx
        rcases List.mem_append.mp hx with hx | hx
        · rw [List.mem_map] at hx
          obtain ⟨p, _, rfl⟩ := hx
          exact Nat.le_refl _
        · have := hi.sentLe x hx
          exact Nat.le_succ_of_le this
      · intro v hv; simp [ctxInit, ctxReset] at hv
      · intro _; exact ⟨hl.nd, hl.ndo, hl.bal, hl.trig, hl.res, hl.dis⟩
    · exact ⟨hl.nd, hl.ndo, hl.bal, hl.trig, hl.res, hl.dis⟩

/-- A state with the same versions, requests and (at most) timers, which is live, satisfies `Inv`. -/
theorem inv_of_live {n m : Node P} (hi : Inv n) (hb : SameBase m n)
    (ht : ∀ v ∈ m.timers, v ∈ n.timers) (hl : Live m) : Inv m := by
  obtain ⟨b1, b2, b3, b4, b5, b6, b7, b8, b9, b10, b11⟩ := hb
  refine ⟨b6 ▸ hi.cnd, b7 ▸ hi.ond, ?_, ?_, fun _ => hl⟩
  · rw [b8, b9]; exact hi.sentLe
  · intro v hv; rw [b9]; exact hi.timLe v (ht v hv)

theorem supports_of_answer {self : P} {g : Ghost P} {p : P} {r : Resp} (h : (p, r) ∈ g.answers)
    (hr : r.granted = true) : Supports self g p = true := by
  unfold Supports
  simp only [Bool.or_eq_true, List.any_eq_true, Bool.and_eq_true, decide_eq_true_eq]
  exact Or.inl (Or.inl ⟨(p, r), h, rfl, hr⟩)

theorem supports_of_lease {self : P} {g : Ghost P} {p : P} {r : Resp} (h : (p, r) ∈ g.answers)
    (hr : r.byLease = true) (ht : g.triggered = true) {a : P × Resp} (ha : a ∈ g.answers)
    (hd : a.2.disrupted = true) : Supports self g p = true := by
  unfold Supports
  simp only [Bool.or_eq_true, List.any_eq_true, Bool.and_eq_true, decide_eq_true_eq]
  exact Or.inl (Or.inr ⟨⟨ht, ⟨(p, r), h, rfl, hr⟩⟩, ⟨a, ha, hd⟩⟩)

theorem popGrantable_post {n : Node P} (hl : Live n) :
    Live (popGrantable n).1 ∧ (popGrantable n).1.g = n.g ∧ SameBase (popGrantable n).1 n ∧
    (popGrantable n).1.timers = n.timers ∧
    ∀ p ∈ (popGrantable n).2, Supports n.self n.g p = true := by
  unfold popGrantable
  cases hd : n.ctx.disrupted with
  | none =>
    exact ⟨hl, rfl, ⟨rfl, rfl, rfl, rfl, rfl, rfl, rfl, rfl, rfl, rfl, rfl⟩, rfl, by simp⟩
  | some x =>
    refine ⟨⟨hl.nd, hl.ndo, hl.bal, hl.trig, by simp, ?_⟩, rfl,
      ⟨rfl, rfl, rfl, rfl, rfl, rfl, rfl, rfl, rfl, rfl, rfl⟩, rfl, ?_⟩
    · intro _; exact hl.dis (by rw [hd]; simp)
    · intro p hp
      obtain ⟨h1, r, h2, h3⟩ := hl.res p hp
      obtain ⟨a, ha, had⟩ := hl.dis (by rw [hd]; simp)
      exact supports_of_lease h2 h3 h1 ha had

theorem live_answer {n : Node P} (hl : Live n) (a : P × Resp) :
    Live { n with g := { n.g with answers := a :: n.g.answers } } := by
  obtain ⟨S, hS, hs⟩ := hl.bal
  refine ⟨hl.nd, hl.ndo, ⟨S, hS, fun p hp => supports_mono_answer (hs p hp)⟩, hl.trig, ?_, ?_⟩
  · intro p hp
    obtain ⟨h1, r, h2, h3⟩ := hl.res p hp
    exact ⟨h1, r, List.mem_cons_of_mem _ h2, h3⟩
  · intro hd
    obtain ⟨b, hb, hbd⟩ := hl.dis hd
    exact ⟨b, List.mem_cons_of_mem _ hb, hbd⟩

theorem response_post {n : Node P} {p : P} {t v : Nat} {r : Resp} (hi : Inv n)
    (hs : (p, t, v) ∈ n.sent) :
    Inv (response n p t v r).1 ∧
      ((response n p t v r).2 = true → Elected (response n p t v r).1) := by
  unfold response
  by_cases h1 : v ≠ n.ctx.version
  · rw [if_pos h1]; exact ⟨hi, fun h => by simp at h⟩
  rw [if_neg h1]
  by_cases h2 : n.role ≠ .follower
  · rw [if_pos h2]; exact ⟨hi, fun h => by simp at h⟩
  rw [if_neg h2]
  by_cases h3 : t ≠ n.term
  · rw [if_pos h3]; exact ⟨hi, fun h => by simp at h⟩
  rw [if_neg h3]
  by_cases h4 : n.term < r.term
  · rw [if_pos h4]; exact ⟨inv_stepDown hi _, fun h => by simp at h⟩
  rw [if_neg h4]
  by_cases h5 : (!r.granted && !r.byLease) = true
  · rw [if_pos h5]; exact ⟨hi, fun h => by simp at h⟩
  rw [if_neg h5]
  by_cases h6 : (r.byLease && !n.ctx.triggered) = true
  · rw [if_pos h6]; exact ⟨hi, fun h => by simp at h⟩
  rw [if_neg h6]
  have hv : v = n.ctx.version := by omega
  have hl : Live n := hi.live (Or.inl ⟨_, hs, hv⟩)
  have hl0 := live_answer hl (p, r)
  -- after recording a disrupted leader
  have key : ∀ n1 : Node P, Live n1 → SameBase n1 n → n1.timers = n.timers →
      n1.g.answers = (p, r) :: n.g.answers → n1.ctx.triggered = n.ctx.triggered →
      let n4 := if r.byLease = true then
          (let n2 := { n1 with ctx := { n1.ctx with reserved := p :: n1.ctx.reserved } }
           grantList (popGrantable n2).1 (popGrantable n2).2)
        else grantList (popGrantable n1).1 ((popGrantable n1).2 ++ [p])
      Inv n4 ∧ Live n4 := by
    intro n1 hl1 hb1 ht1 ha1 htr1
    dsimp only
    by_cases hL : r.byLease = true
    · rw [if_pos hL]
      have htrig : n1.g.triggered = true := by
        rw [← hl1.trig, htr1]
        cases hx : n.ctx.triggered with
        | true => rfl
        | false => simp [hL, hx] at h6
      have hl2 : Live { n1 with ctx := { n1.ctx with reserved := p :: n1.ctx.reserved } } := by
        refine ⟨hl1.nd, hl1.ndo, hl1.bal, hl1.trig, ?_, hl1.dis⟩
        intro q hq
        rcases List.mem_cons.mp hq with rfl | hq
        · exact ⟨htrig, r, by rw [ha1]; exact List.mem_cons_self .., hL⟩
        · exact hl1.res q hq
      obtain ⟨q1, q2, q3, q4, q5⟩ := popGrantable_post hl2
      generalize hn2 : ({ n1 with ctx := { n1.ctx with reserved := p :: n1.ctx.reserved } } : Node P) = n2 at *
      have hb2 : SameBase n2 n := by subst hn2; exact hb1
      have ht2 : n2.timers = n.timers := by subst hn2; exact ht1
      have hlive := grantList_live (popGrantable n2).2 (popGrantable n2).1 q1
        (by intro x hx; rw [q2, q3.1]; exact q5 x hx)
      obtain ⟨g1, g2⟩ := grantList_base (popGrantable n2).2 (popGrantable n2).1
      refine ⟨inv_of_live hi ?_ ?_ hlive, hlive⟩
      · obtain ⟨a1, a2, a3, a4, a5, a6, a7, a8, a9, a10, a11⟩ := g1
        obtain ⟨c1, c2, c3, c4, c5, c6, c7, c8, c9, c10, c11⟩ := q3
        obtain ⟨d1, d2, d3, d4, d5, d6, d7, d8, d9, d10, d11⟩ := hb2
        exact ⟨a1.trans (c1.trans d1), a2.trans (c2.trans d2), a3.trans (c3.trans d3),
          a4.trans (c4.trans d4), a5.trans (c5.trans d5), a6.trans (c6.trans d6),
          a7.trans (c7.trans d7), a8.trans (c8.trans d8), a9.trans (c9.trans d9),
          a10.trans (c10.trans d10), a11.trans (c11.trans d11)⟩
      · intro w hw
        have := g2 w hw
        rw [q4, ht2] at this; exact this
    · rw [if_neg hL]
      have hG : r.granted = true := by
        cases hx : r.granted with
        | true => rfl
        | false => simp [hL, hx] at h5
      obtain ⟨q1, q2, q3, q4, q5⟩ := popGrantable_post hl1
      have hlive := grantList_live ((popGrantable n1).2 ++ [p]) (popGrantable n1).1 q1
        (by
          intro x hx
          rw [q2, q3.1]
          rcases List.mem_append.mp hx with hx | hx
          · exact q5 x hx
          · simp at hx; subst hx
            exact supports_of_answer (by rw [ha1]; exact List.mem_cons_self ..) hG)
      obtain ⟨g1, g2⟩ := grantList_base ((popGrantable n1).2 ++ [p]) (popGrantable n1).1
      refine ⟨inv_of_live hi ?_ ?_ hlive, hlive⟩
      · obtain ⟨a1, a2, a3, a4, a5, a6, a7, a8, a9, a10, a11⟩ := g1
        obtain ⟨c1, c2, c3, c4, c5, c6, c7, c8, c9, c10, c11⟩ := q3
        obtain ⟨d1, d2, d3, d4, d5, d6, d7, d8, d9, d10, d11⟩ := hb1
        exact ⟨a1.trans (c1.trans d1), a2.trans (c2.trans d2), a3.trans (c3.trans d3),
          a4.trans (c4.trans d4), a5.trans (c5.trans d5), a6.trans (c6.trans d6),
          a7.trans (c7.trans d7), a8.trans (c8.trans d8), a9.trans (c9.trans d9),
          a10.trans (c10.trans d10), a11.trans (c11.trans d11)⟩
      · intro w hw
        have := g2 w hw
        rw [q4, ht1] at this; exact this
  dsimp only
  have fin : ∀ n1 : Node P, Live n1 → SameBase n1 n → n1.timers = n.timers →
      n1.g.answers = (p, r) :: n.g.answers → n1.ctx.triggered = n.ctx.triggered →
      let n4 := if r.byLease = true then
          (let n2 := { n1 with ctx := { n1.ctx with reserved := p :: n1.ctx.reserved } }
           grantList (popGrantable n2).1 (popGrantable n2).2)
        else grantList (popGrantable n1).1 ((popGrantable n1).2 ++ [p])
      Inv (if n4.ctx.ballot.granted = true then electSelf n4 else (n4, false)).1 ∧
      ((if n4.ctx.ballot.granted = true then electSelf n4 else (n4, false)).2 = true →
        Elected (if n4.ctx.ballot.granted = true then electSelf n4 else (n4, false)).1) := by
    intro n1 a b c d e
    obtain ⟨k1, k2⟩ := key n1 a b c d e
    dsimp only at k1 k2 ⊢
    generalize (if r.byLease = true then
          (grantList (popGrantable { n1 with ctx := { n1.ctx with reserved := p :: n1.ctx.reserved } }).1
            (popGrantable { n1 with ctx := { n1.ctx with reserved := p :: n1.ctx.reserved } }).2)
        else grantList (popGrantable n1).1 ((popGrantable n1).2 ++ [p])) = n4 at *
    split
    · next hg => exact elect_post k1 k2 hg
    · exact ⟨k1, fun h => by simp at h⟩
  by_cases hD : r.disrupted = true
  · simp only [hD, if_true]
    refine fin _ ⟨hl0.nd, hl0.ndo, hl0.bal, hl0.trig, hl0.res, ?_⟩ ?_ rfl rfl rfl
    · intro _; exact ⟨(p, r), List.mem_cons_self .., hD⟩
    · exact ⟨rfl, rfl, rfl, rfl, rfl, rfl, rfl, rfl, rfl, rfl, rfl⟩
  · simp only [hD]
    exact fin _ hl0 ⟨rfl, rfl, rfl, rfl, rfl, rfl, rfl, rfl, rfl, rfl, rfl⟩ rfl rfl rfl

/-- Configurations come from `std::set`s. -/
def Op.WF : Op P → Prop
  | .setConf c o => c.Nodup ∧ o.Nodup
  | _ => True

theorem step_post {enabled : Bool} {n n' : Node P} {el : Bool} (o : Op P) (hw : o.WF)
    (hi : Inv n) (hs : step enabled n o = some (n', el)) : Inv n' ∧ (el = true → Elected n') := by
  have fin : ∀ (x : Node P × Bool), (Inv x.1 ∧ (x.2 = true → Elected x.1)) →
      some x = some (n', el) → Inv n' ∧ (el = true → Elected n') := by
    intro x hx h
    simp only [Option.some.injEq] at h
    subst h; exact hx
  cases o with
  | timeout tr =>
    simp only [step] at hs; split at hs
    · exact fin _ ⟨inv_base hi n.term n.vote n.role n.lease n.lastId _, by simp⟩ hs
    · simp at hs
  | resume i now =>
    simp only [step] at hs
    cases hf : n.frames[i]? with
    | none => rw [hf] at hs; simp at hs
    | some x =>
      obtain ⟨t, tr⟩ := x
      rw [hf] at hs
      exact fin _ (resume_post (inv_base hi n.term n.vote n.role n.lease n.lastId _)) hs
  | answer p t v r now =>
    simp only [step] at hs; split at hs
    · next h => exact fin _ (response_post hi h) hs
    · simp at hs
  | selfTimer v now =>
    simp only [step] at hs; split at hs
    · next h =>
      split at hs
      · next h2 =>
        exact fin _ (grantSelf_post hi (hi.live (Or.inr (h2.2 ▸ h)))) hs
      · exact fin _ ⟨hi, by simp⟩ hs
    · simp at hs
  | stepDown t =>
    simp only [step] at hs
    exact fin _ ⟨inv_stepDown hi t, by simp⟩ hs
  | leaderSeen p now =>
    simp only [step] at hs; split at hs
    · exact fin _ ⟨inv_reset (inv_base hi n.term n.vote n.role _ n.lastId n.frames), by simp⟩ hs
    · simp at hs
  | setConf c o =>
    simp only [step] at hs
    refine fin _ ⟨⟨hw.1, hw.2, hi.sentLe, hi.timLe, ?_⟩, by simp⟩ hs
    intro hx
    have := hi.live hx
    exact ⟨this.nd, this.ndo, this.bal, this.trig, this.res, this.dis⟩
  | append id =>
    simp only [step] at hs
    exact fin _ ⟨inv_base hi n.term n.vote n.role n.lease id n.frames, by simp⟩ hs
  | becomeLeader =>
    simp only [step] at hs; split at hs
    · exact fin _ ⟨inv_base hi n.term n.vote .leader _ n.lastId n.frames, by simp⟩ hs
    · simp at hs
  | voteRequest c t =>
    simp only [step] at hs; split at hs
    · have h1 := inv_stepDown hi t
      generalize stepDown n t = m at *
      by_cases hv : m.vote = none
      · rw [if_pos hv] at hs
        exact fin _ ⟨inv_base h1 m.term (some c) m.role m.lease m.lastId m.frames, by simp⟩ hs
      · rw [if_neg hv] at hs
        exact fin _ ⟨h1, by simp⟩ hs
    · simp at hs
  | preVoteRequest q now =>
    have h1 : (request1 n q).1 = n := by
      unfold request1
      split
      · rfl
      · split
        · rfl
        · split <;> rfl
    simp only [step] at hs
    generalize request1 n q = x at *
    obtain ⟨a, b⟩ := x
    dsimp only at h1; subst h1
    cases b with
    | einval => exact fin _ ⟨hi, by simp⟩ hs
    | refused r => exact fin _ ⟨hi, by simp⟩ hs
    | readLog => exact fin _ ⟨hi, by simp [request2]⟩ hs
  | shutdown =>
    simp only [step] at hs
    have h1 := inv_stepDown hi n.term
    generalize stepDown n n.term = m at *
    exact fin _ ⟨inv_base h1 m.term m.vote .shutting m.lease m.lastId m.frames, by simp⟩ hs

theorem run_inv {enabled : Bool} {n n' : Node P} (os : List (Op P)) (hw : ∀ o ∈ os, o.WF)
    (hi : Inv n) (hr : run enabled n os = some n') : Inv n' := by
  induction os generalizing n with
  | nil => simp [run] at hr; subst hr; exact hi
  | cons o os ih =>
    simp only [run] at hr
    cases hs : step enabled n o with
    | none => rw [hs] at hr; simp at hr
    | some x =>
      obtain ⟨m, el⟩ := x
      rw [hs] at hr
      exact ih (fun o ho => hw o (List.mem_cons_of_mem _ ho))
        (step_post o (hw o (List.mem_cons_self ..)) hi hs).1 hr

/-- A fresh node. -/
def fresh (self : P) (term : Nat) (vote : Option P) (lastId : Nat × Nat) (lease : Follower P)
    (conf old : List P) : Node P :=
  ⟨self, term, vote, .follower, lastId, lease, conf, old, { ballot := Ballot.init [] none },
    [], [], [], {}⟩

theorem inv_fresh {self : P} {term : Nat} {vote : Option P} {lastId : Nat × Nat}
    {lease : Follower P} {conf old : List P} (hc : conf.Nodup) (ho : old.Nodup) :
    Inv (fresh self term vote lastId lease conf old) :=
  ⟨hc, ho, by simp [fresh], by simp [fresh], by simp [fresh]⟩

end PreVote
end Braft
