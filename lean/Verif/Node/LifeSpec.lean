import Verif.Node.Life
/-
What a user of the callbacks relies on, as an automaton: a state machine is idle, leads in a term, follows a leader in a term,
or is shut down. Small and independent of the model.
-/
namespace Braft.Life

inductive Now (L : Type) where
  | idle
  | leading (t : Nat)
  | following (l : L) (t : Nat)
  | down
deriving DecidableEq, Repr

/-- What the calls so far say; the terms of the last on_leader_start and of the last on_start_following. -/
structure View (L : Type) where
  now : Now L
  lead : Nat
  follow : Nat
deriving DecidableEq, Repr

def View.init {L : Type} : View L := ⟨.idle, 0, 0⟩

/-- One more call; none if the call is not expected. on_leader_stop is also accepted from an idle state machine. -/
def View.see {L : Type} [DecidableEq L] (v : View L) : Ev L → Option (View L)
  | .leaderStart t => if v.now = .idle ∧ v.lead ≤ t ∧ v.follow < t then some ⟨.leading t, t, v.follow⟩ else none
  | .leaderStop =>
    match v.now with
    | .idle => some v
    | .leading _ => some ⟨.idle, v.lead, v.follow⟩
    | _ => none
  | .startFollowing l t => if v.now = .idle ∧ v.lead ≤ t ∧ v.follow ≤ t then some ⟨.following l t, v.lead, t⟩ else none
  | .stopFollowing l t => if v.now = .following l t then some ⟨.idle, v.lead, v.follow⟩ else none
  | .shutdown => if v.now = .idle then some ⟨.down, v.lead, v.follow⟩ else none

/-- A sequence of calls. -/
def View.watch {L : Type} [DecidableEq L] : View L → List (Ev L) → Option (View L)
  | v, [] => some v
  | v, e :: r => match v.see e with
    | none => none
    | some v' => v'.watch r

end Braft.Life
