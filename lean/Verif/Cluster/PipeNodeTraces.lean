import Verif.Cluster.PipeNode
import Verif.Cluster.Traces
/-
Concrete executions of servers with tasks, closures and state machines, checked by evaluation.
-/
set_option linter.unusedVariables false

namespace Braft.Cl.PTraces
open Braft.Raft Braft.Cl.Traces

abbrev PA := PAct Nat Nat Nat
abbrev PS := PSys Nat Nat Nat

section
variable {N D C : Type} [DecidableEq N] [DecidableEq D]

/-- Run a list of actions; `none` if one of them is not possible. -/
def runP (p : CParams) (c0 : Conf N) : PSys N D C → List (PAct N D C) → Option (PSys N D C)
  | s, [] => some s
  | s, a :: as => match pstep p c0 s a with
    | none => none
    | some s' => runP p c0 s' as

theorem psteps_append {p : CParams} {c0 : Conf N} {a b c : PSys N D C} (h1 : PSteps p c0 a b)
    (h2 : PSteps p c0 b c) : PSteps p c0 a c := by
  induction h2 with
  | refl => exact h1
  | tail x _ hs ih => exact .tail x ih hs

theorem psteps_of_run {p : CParams} {c0 : Conf N} : ∀ (as : List (PAct N D C)) {s s' : PSys N D C},
    runP p c0 s as = some s' → PSteps p c0 s s'
  | [], s, s', h => by
    have : s = s' := Option.some.inj h
    subst this; exact .refl
  | a :: as, s, s', h => by
    unfold runP at h
    split at h
    · cases h
    · next s1 h1 => exact psteps_append (.tail a .refl h1) (psteps_of_run as h)

/-- The state after a list of actions from `s`. -/
def afterP (p : CParams) (c0 : Conf N) (s : PSys N D C) (as : List (PAct N D C)) : PSys N D C :=
  (runP p c0 s as).getD s

theorem afterP_ok {p : CParams} {c0 : Conf N} {s : PSys N D C} {as : List (PAct N D C)}
    (h : (runP p c0 s as).isSome = true) : PSteps p c0 s (afterP p c0 s as) := by
  cases hr : runP p c0 s as with
  | none => rw [hr] at h; cases h
  | some s' =>
    have : afterP p c0 s as = s' := by rw [afterP, hr]; rfl
    rw [this]; exact psteps_of_run as hr
end

/-- The closures of configuration entries are 100 and 101. -/
def sv (a : A) : PA := .srv a 100
def sw (a : A) : PA := .srv a 101
/-- A commit notification up to `k`, and the end of the round; the user calls next() once in on_apply. -/
def run (i k : Nat) : List PA :=
  [.fsm i 512 (fun _ => [.next]) (fun _ => false) (.committed k), .fsmEnd i (fun _ => [.next]) (fun _ => false)]

/-- The disk thread of `i` does `n` things. -/
def disks (i n : Nat) : List PA := List.replicate n (sv (.disk i))

/-- 1 is elected in term 2; task 7 with closure 1 and task 8 with closure 2 are given to it, as one batch, and task 9
with closure 3 that wants term 5. 2 stores the entries, they are committed, and 1 applies them. -/
def one : List PA :=
  [sv (.elect 1), sv (.electB 1 ⟨2, (0, 0), 0⟩ true true), sv (.voteReq 2 2 1 (0, 0) none),
   sv (.voteReqB 2 ⟨2, 1, (0, 0), 1, (0, 0)⟩ true true true),
   sv (.voteRes 1 ⟨2, 2, 1⟩ true false false 2 1 true),
   .submit 1 ⟨7, some 1, -1⟩, .submit 1 ⟨9, some 3, 5⟩, .submit 1 ⟨8, some 2, 2⟩, .batch 1 3,
   sv (.replSend 1 2 0), sv (.replRead 1 (.send 2 2 0 0 0) 3),
   sv (.append 2 2 1 0 0 [ce 2 c3, da 2 7, da 2 8] 0 true false)] ++ disks 2 4 ++ disks 1 5 ++
  [sv (.replRes 1 2 1 3 3), sv (.replAck 1 (.ack 2 2 1 3))] ++ run 1 3
/-- A heartbeat tells 2 about the commit. Task 5 with closure 4 is given to 1, but not replicated. 2 is elected in
term 3; task 6 with closure 2 is given to it, too, replicated to 3 and committed; 3 and 2 apply it. 1 steps down. -/
def two : List PA :=
  [sv (.replSend 1 2 3), sv (.replRead 1 (.send 2 2 3 2 3) 0), sv (.append 2 2 1 3 2 [] 3 true false)] ++ run 2 3 ++
  [.submit 1 ⟨5, some 4, -1⟩, .batch 1 1,
   sw (.elect 2), sw (.electB 2 ⟨3, (2, 3), 0⟩ true true), sw (.voteReq 3 3 2 (2, 3) none),
   sw (.voteReqB 3 ⟨3, 2, (2, 3), 1, (0, 0)⟩ true true true),
   sw (.voteRes 2 ⟨3, 3, 1⟩ true false false 3 1 true),
   .submit 2 ⟨6, some 2, -1⟩, .batch 2 1] ++ disks 2 4 ++
  [sw (.replSend 2 3 0), sw (.replRead 2 (.send 3 3 0 0 3) 5),
   sw (.append 3 3 2 0 0 [ce 2 c3, da 2 7, da 2 8, ce 3 c3, da 3 6] 3 true false)] ++ disks 3 6 ++
  [sw (.replRes 2 3 1 5 5), sw (.replAck 2 (.ack 3 3 1 5))] ++ run 2 5 ++
  [sw (.replSend 2 3 5), sw (.replRead 2 (.send 3 3 5 3 5) 0), sw (.append 3 3 2 5 3 [] 5 true false)] ++ run 3 5 ++
  [sw (.stepDown 1 3 true)]
/-- 2 saves a snapshot, 1 installs it. -/
def three : List PA :=
  [.fsm 2 512 (fun _ => []) (fun _ => false) (.save true), sw (.saveSnap 2 5), sw (.sendIS 2 1),
   sw (.install 1 3 2 [ce 2 c3, da 2 7, da 2 8, ce 3 c3, da 3 6] true), sw (.copied 1),
   .load 1 (fun _ => []) (fun _ => false) true]
/-- 1 restarts with its snapshot. -/
def four : List PA := [sw (.crash 1)]

/-- Task 7 with closure 1 is given to 1 and stored by 2, but 1 steps down before it hears of it. 2 is elected in term
3 and commits it with 3. -/
def unlucky : List PA :=
  [sv (.elect 1), sv (.electB 1 ⟨2, (0, 0), 0⟩ true true), sv (.voteReq 2 2 1 (0, 0) none),
   sv (.voteReqB 2 ⟨2, 1, (0, 0), 1, (0, 0)⟩ true true true),
   sv (.voteRes 1 ⟨2, 2, 1⟩ true false false 2 1 true),
   .submit 1 ⟨7, some 1, -1⟩, .batch 1 1,
   sv (.replSend 1 2 0), sv (.replRead 1 (.send 2 2 0 0 0) 2),
   sv (.append 2 2 1 0 0 [ce 2 c3, da 2 7] 0 true false)] ++ disks 2 3 ++
  [sv (.stepDown 1 2 true),
   sw (.elect 2), sw (.electB 2 ⟨3, (2, 2), 0⟩ true true), sw (.voteReq 3 3 2 (2, 2) none),
   sw (.voteReqB 3 ⟨3, 2, (2, 2), 1, (0, 0)⟩ true true true),
   sw (.voteRes 2 ⟨3, 3, 1⟩ true false false 3 1 true)] ++ disks 2 2 ++
  [sw (.replSend 2 3 0), sw (.replRead 2 (.send 3 3 0 0 0) 3),
   sw (.append 3 3 2 0 0 [ce 2 c3, da 2 7, ce 3 c3] 0 true false)] ++ disks 3 4 ++
  [sw (.replRes 2 3 1 3 3), sw (.replAck 2 (.ack 3 3 1 3))] ++ run 2 3

end Braft.Cl.PTraces
