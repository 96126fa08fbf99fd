import Verif.Cluster.Witness
import Verif.Cluster.Traces
/-
Concrete executions of a group with a witness, checked by evaluation (for Verif/Props/Witness.lean).
-/
namespace Braft.Cl.WTraces
open Braft.Raft Braft.Cl Braft.Cl.Traces

abbrev A := CAct Nat (Option Nat)
abbrev S := CSys Nat (Option Nat)

section
variable {N D : Type} [DecidableEq N] [DecidableEq D]

/-- Run a list of actions; `none` if one of them is not possible. -/
def runW (p : CParams) (W : WParams N D) (c0 : Conf N) :
    CSys N (Option D) → List (CAct N (Option D)) → Option (CSys N (Option D))
  | s, [] => some s
  | s, a :: as => match wstep p W c0 s a with
    | none => none
    | some s' => runW p W c0 s' as

theorem wsteps_append {p : CParams} {W : WParams N D} {c0 : Conf N} {a b c : CSys N (Option D)} (h1 : WSteps p W c0 a b)
    (h2 : WSteps p W c0 b c) : WSteps p W c0 a c := by
  induction h2 with
  | refl => exact h1
  | tail x _ hs ih => exact .tail x ih hs

theorem wsteps_of_run {p : CParams} {W : WParams N D} {c0 : Conf N} : ∀ (as : List (CAct N (Option D)))
    {s s' : CSys N (Option D)}, runW p W c0 s as = some s' → WSteps p W c0 s s'
  | [], s, s', h => by
    have : s = s' := Option.some.inj h
    subst this; exact .refl
  | a :: as, s, s', h => by
    unfold runW at h
    split at h
    · cases h
    · next s1 h1 => exact wsteps_append (.tail a .refl h1) (wsteps_of_run as h)

/-- The state after a list of actions from `s`. -/
def wafter (p : CParams) (W : WParams N D) (c0 : Conf N) (s : CSys N (Option D)) (as : List (CAct N (Option D))) :
    CSys N (Option D) := (runW p W c0 s as).getD s

theorem wafter_ok {p : CParams} {W : WParams N D} {c0 : Conf N} {s : CSys N (Option D)} {as : List (CAct N (Option D))}
    (h : (runW p W c0 s as).isSome = true) : WSteps p W c0 s (wafter p W c0 s as) := by
  cases hr : runW p W c0 s as with
  | none => rw [hr] at h; cases h
  | some s' =>
    have : wafter p W c0 s as = s' := by rw [wafter, hr]; rfl
    rw [this]; exact wsteps_of_run as hr
end

/-- Node 3 is a witness; `f`: the flag; `x`: is the leadership not handed to witnesses? -/
def W3 (f x : Bool) : WParams Nat Nat := ⟨fun i => decide (i = 3), f, 0, x⟩

def wc (t : Nat) (c : Conf Nat) : Entry Nat (Option Nat) := ⟨t, .conf c⟩
def wd (t d : Nat) : Entry Nat (Option Nat) := ⟨t, .data (some d)⟩

/-- 1 is elected by 1 and 2 in term 2, appends 7 and replicates it to the witness 3 only, where `d` is stored; it is committed
and applied by 1. -/
def begun (d : Nat) : List A :=
  [.elect 1, .electB 1 ⟨2, (0, 0), 0⟩ true true, .voteReq 2 2 1 (0, 0) none,
   .voteReqB 2 ⟨2, 1, (0, 0), 1, (0, 0)⟩ true true true,
   .voteRes 1 ⟨2, 2, 1⟩ true false false 2 1 true,
   .apply 1 [some 7], .replSend 1 3 0, .replRead 1 (.send 2 3 0 0 0) 2,
   .append 3 2 1 0 0 [wc 2 c3, wd 2 d] 0 true false, .disk 3, .disk 3, .disk 3,
   .disk 1, .disk 1, .disk 1, .disk 1, .replRes 1 3 1 2 2, .replAck 1 (.ack 2 3 1 2), .fsm 1, .fsm 1,
   .replSend 1 3 2, .replRead 1 (.send 2 3 2 2 2) 0, .append 3 2 1 2 2 [] 2 true false, .fsm 3, .fsm 3]

/-- Then 2 catches up from 1 and applies as well. -/
def caught : List A :=
  [.replSend 1 2 0, .replRead 1 (.send 2 2 0 0 2) 2, .append 2 2 1 0 0 [wc 2 c3, wd 2 7] 2 true false,
   .disk 2, .disk 2, .disk 2, .fsm 2, .fsm 2]

/-- The witness, elected by 2 and 3 in term 3 after `start`, replicates what it stored to 2, which applies it. -/
def taken (start : A) (d : Nat) : List A :=
  [start, .electB 3 ⟨3, (2, 2), 0⟩ true true, .voteReq 2 3 3 (2, 2) none,
   .voteReqB 2 ⟨3, 3, (2, 2), 2, (0, 0)⟩ true true true,
   .voteRes 3 ⟨2, 3, 1⟩ true false false 3 2 true,
   .replSend 3 2 0, .replRead 3 (.send 3 2 0 0 2) 3, .append 2 3 3 0 0 [wc 2 c3, wd 2 d, wc 3 c3] 2 true false,
   .disk 2, .disk 2, .disk 2, .disk 2, .fsm 2, .fsm 2]

/-- 1 saves a snapshot and installs it on the witness, which does not copy its files. -/
def installed : List A :=
  [.elect 1, .electB 1 ⟨2, (0, 0), 0⟩ true true, .voteReq 2 2 1 (0, 0) none,
   .voteReqB 2 ⟨2, 1, (0, 0), 1, (0, 0)⟩ true true true,
   .voteRes 1 ⟨2, 2, 1⟩ true false false 2 1 true,
   .apply 1 [some 7], .replSend 1 2 0, .replRead 1 (.send 2 2 0 0 0) 2,
   .append 2 2 1 0 0 [wc 2 c3, wd 2 7] 0 true false, .disk 2, .disk 2, .disk 2,
   .disk 1, .disk 1, .disk 1, .disk 1, .replRes 1 2 1 2 2, .replAck 1 (.ack 2 2 1 2), .fsm 1, .fsm 1,
   .saveSnap 1 2, .sendIS 1 3, .stepDown 3 2 true, .install 3 2 1 [wc 2 c3, ⟨2, .data none⟩] true, .copied 3, .loaded 3]

end Braft.Cl.WTraces
