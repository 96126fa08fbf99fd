import Verif.Cluster.Server
/-
Concrete executions of the cluster of servers, checked by evaluation. They show that the hypotheses
of the theorems of `Verif/Props/Cluster.lean` are met, and are the counterexamples stated there.
-/
namespace Braft.Cl.Traces
open Braft.Raft

abbrev A := CAct Nat Nat
abbrev S := CSys Nat Nat

section
variable {N D : Type} [DecidableEq N] [DecidableEq D]

/-- Run a list of actions; `none` if one of them is not possible. -/
def runC (p : CParams) (c0 : Conf N) : CSys N D → List (CAct N D) → Option (CSys N D)
  | s, [] => some s
  | s, a :: as => match cstep p c0 s a with
    | none => none
    | some s' => runC p c0 s' as

theorem csteps_append {p : CParams} {c0 : Conf N} {a b c : CSys N D} (h1 : CSteps p c0 a b)
    (h2 : CSteps p c0 b c) : CSteps p c0 a c := by
  induction h2 with
  | refl => exact h1
  | tail x _ hs ih => exact .tail x ih hs

theorem csteps_of_run {p : CParams} {c0 : Conf N} : ∀ (as : List (CAct N D)) {s s' : CSys N D},
    runC p c0 s as = some s' → CSteps p c0 s s'
  | [], s, s', h => by
    have : s = s' := Option.some.inj h
    subst this; exact .refl
  | a :: as, s, s', h => by
    unfold runC at h
    split at h
    · cases h
    · next s1 h1 => exact csteps_append (.tail a .refl h1) (csteps_of_run as h)

/-- The state after a list of actions from `s`. -/
def after (p : CParams) (c0 : Conf N) (s : CSys N D) (as : List (CAct N D)) : CSys N D :=
  (runC p c0 s as).getD s

theorem after_ok {p : CParams} {c0 : Conf N} {s : CSys N D} {as : List (CAct N D)}
    (h : (runC p c0 s as).isSome = true) : CSteps p c0 s (after p c0 s as) := by
  cases hr : runC p c0 s as with
  | none => rw [hr] at h; cases h
  | some s' =>
    have : after p c0 s as = s' := by rw [after, hr]; rfl
    rw [this]; exact csteps_of_run as hr
end

/-- A group of three. -/
def c3 : Conf Nat := { peers := [1, 2, 3] }
def ce (t : Nat) (c : Conf Nat) : Entry Nat Nat := ⟨t, .conf c⟩
def da (t d : Nat) : Entry Nat Nat := ⟨t, .data d⟩

/-- 1 is elected by 1 and 2 in term 2, appends 7, replicates to 2, commits and both apply. -/
def first : List A :=
  [.elect 1, .electB 1 ⟨2, (0, 0), 0⟩ true true, .voteReq 2 2 1 (0, 0) none,
   .voteReqB 2 ⟨2, 1, (0, 0), 1, (0, 0)⟩ true true true,
   .voteRes 1 ⟨2, 2, 1⟩ true false false 2 1 true,
   .apply 1 [7], .replSend 1 2 0, .replRead 1 (.send 2 2 0 0 0) 2,
   .append 2 2 1 0 0 [ce 2 c3, da 2 7] 0 true false, .disk 2, .disk 2, .disk 2,
   .disk 1, .disk 1, .disk 1, .disk 1, .replRes 1 2 1 2 2, .replAck 1 (.ack 2 2 1 2),
   .fsm 1, .fsm 1, .replSend 1 2 2, .replRead 1 (.send 2 2 2 2 2) 0,
   .append 2 2 1 2 2 [] 2 true false, .fsm 2, .fsm 2]

/-- Then 1 restarts, and 2 is elected by 2 and 3 in term 3. -/
def second : List A :=
  [.crash 1, .elect 2, .electB 2 ⟨3, (2, 2), 0⟩ true true, .voteReq 3 3 2 (2, 2) none,
   .voteReqB 3 ⟨3, 2, (2, 2), 1, (0, 0)⟩ true true true,
   .voteRes 2 ⟨3, 3, 1⟩ true false false 3 1 true]

def c5 : Conf Nat := { peers := [1, 2, 3, 4, 5] }

/-- A group of five. 1 is elected by 1, 4 and 5 in term 2, appends 7 and replicates it to 3 only.
Its replicator to 3 fills in the common fields of the next request (entry 2 of term 2 comes
before) and is then not scheduled for a while. 2, elected by 2, 4 and 5 in term 3, appends 8 and 9
and replaces the log of 1. Now the replicator reads the entries from index 3 on, and sends 9 (of
term 3) to 3 as what comes after 7, in term 2. 3 accepts it. -/
def mixed : List A :=
  [.elect 1, .electB 1 ⟨2, (0, 0), 0⟩ true true,
   .voteReq 4 2 1 (0, 0) none, .voteReqB 4 ⟨2, 1, (0, 0), 1, (0, 0)⟩ true true true,
   .voteReq 5 2 1 (0, 0) none, .voteReqB 5 ⟨2, 1, (0, 0), 1, (0, 0)⟩ true true true,
   .voteRes 1 ⟨4, 2, 1⟩ true false false 2 1 true, .voteRes 1 ⟨5, 2, 1⟩ true false false 2 1 true,
   .apply 1 [7], .replSend 1 3 0, .replRead 1 (.send 2 3 0 0 0) 2,
   .append 3 2 1 0 0 [ce 2 c5, da 2 7] 0 true false,
   .replSend 1 3 2,
   .elect 2, .electB 2 ⟨2, (0, 0), 0⟩ true true, .elect 2, .electB 2 ⟨3, (0, 0), 0⟩ true true,
   .voteReq 4 3 2 (0, 0) none, .voteReqB 4 ⟨3, 2, (0, 0), 2, (0, 0)⟩ true true true,
   .voteReq 5 3 2 (0, 0) none, .voteReqB 5 ⟨3, 2, (0, 0), 2, (0, 0)⟩ true true true,
   .voteRes 2 ⟨4, 3, 2⟩ true false false 3 2 true, .voteRes 2 ⟨5, 3, 2⟩ true false false 3 2 true,
   .apply 2 [8, 9], .replSend 2 1 0, .replRead 2 (.send 3 1 0 0 0) 3,
   .append 1 3 2 0 0 [ce 3 c5, da 3 8, da 3 9] 0 true false,
   .replRead 1 (.send 2 3 2 2 0) 1,
   .append 3 2 1 2 2 [da 3 9] 0 true false]

/-- Then 2 replicates its log to 4 and commits it; the next heartbeat lets 3 apply it. -/
def mixedApply : List A :=
  [.replSend 2 4 0, .replRead 2 (.send 3 4 0 0 0) 3,
   .append 4 3 2 0 0 [ce 3 c5, da 3 8, da 3 9] 0 true false,
   .disk 4, .disk 4, .disk 4, .disk 4, .replRes 2 4 1 3 3, .replAck 2 (.ack 3 4 1 3),
   .disk 2, .disk 2, .disk 2, .disk 2, .disk 2,
   .disk 1, .disk 1, .disk 1, .disk 1, .disk 1, .disk 1, .disk 1, .disk 1, .disk 1, .disk 1,
   .replRes 2 1 1 3 3, .replAck 2 (.ack 3 1 1 3), .fsm 2, .fsm 2,
   .replSend 2 3 3, .replRead 2 (.send 3 3 3 3 3) 0, .append 3 3 2 3 3 [] 3 true false,
   .fsm 3, .fsm 3]

/-- A group of one. 1 stands for election in term 2; while it waits for its disk, the vote timer
lets it step down in the same term. It counts its own vote nevertheless when the lease allows it,
by then in term 7, where it has voted for nobody. -/
def c1 : Conf Nat := { peers := [1] }
def unvoted : List A :=
  [.elect 1, .stepDown 1 2 true, .electB 1 ⟨2, (0, 0), 0⟩ true false, .stepDown 1 7 true,
   .timer 1 2 true]

end Braft.Cl.Traces
