import Verif.Cluster.LogNode
import Verif.Cluster.Traces
/-
Concrete executions of servers with LogManagers, checked by evaluation.
-/
set_option linter.unusedVariables false

namespace Braft.Cl.JTraces
open Braft.Raft Braft.Cl.Traces

abbrev J := JAct Nat Nat
abbrev JS := JSys Nat Nat

section
variable {N D : Type} [DecidableEq N] [DecidableEq D]

/-- Run a list of actions; `none` if one of them is not possible. -/
def runJ (p : CParams) (c0 : Conf N) : JSys N D → List (JAct N D) → Option (JSys N D)
  | s, [] => some s
  | s, a :: as => match jstep p c0 s a with
    | none => none
    | some s' => runJ p c0 s' as

theorem jsteps_append {p : CParams} {c0 : Conf N} {a b c : JSys N D} (h1 : JSteps p c0 a b)
    (h2 : JSteps p c0 b c) : JSteps p c0 a c := by
  induction h2 with
  | refl => exact h1
  | tail x _ hs ih => exact .tail x ih hs

theorem jsteps_of_run {p : CParams} {c0 : Conf N} : ∀ (as : List (JAct N D)) {s s' : JSys N D},
    runJ p c0 s as = some s' → JSteps p c0 s s'
  | [], s, s', h => by
    have : s = s' := Option.some.inj h
    subst this; exact .refl
  | a :: as, s, s', h => by
    unfold runJ at h
    split at h
    · cases h
    · next s1 h1 => exact jsteps_append (.tail a .refl h1) (jsteps_of_run as h)

/-- The state after a list of actions from `s`. -/
def afterJ (p : CParams) (c0 : Conf N) (s : JSys N D) (as : List (JAct N D)) : JSys N D :=
  (runJ p c0 s as).getD s

theorem afterJ_ok {p : CParams} {c0 : Conf N} {s : JSys N D} {as : List (JAct N D)}
    (h : (runJ p c0 s as).isSome = true) : JSteps p c0 s (afterJ p c0 s as) := by
  cases hr : runJ p c0 s as with
  | none => rw [hr] at h; cases h
  | some s' =>
    have : afterJ p c0 s as = s' := by rw [afterJ, hr]; rfl
    rw [this]; exact jsteps_of_run as hr
end

def sv (a : A) : J := .srv a 0

/-- 1 is elected in term 2, appends 7; 2 stores and applies it, too. -/
def one : List J :=
  [sv (.elect 1), sv (.electB 1 ⟨2, (0, 0), 0⟩ true true), sv (.voteReq 2 2 1 (0, 0) none),
   sv (.voteReqB 2 ⟨2, 1, (0, 0), 1, (0, 0)⟩ true true true),
   sv (.voteRes 1 ⟨2, 2, 1⟩ true false false 2 1 true),
   sv (.apply 1 [7]), sv (.replSend 1 2 0), sv (.replRead 1 (.send 2 2 0 0 0) 2),
   sv (.append 2 2 1 0 0 [ce 2 c3, da 2 7] 0 true false), .begin 2, .flush 2 1, .fin 2,
   .begin 1, .flush 1 2, .fin 1, sv (.replRes 1 2 1 2 2), sv (.replAck 1 (.ack 2 2 1 2)),
   sv (.fsm 1), sv (.fsm 1), sv (.replSend 1 2 2), sv (.replRead 1 (.send 2 2 2 2 2) 0),
   sv (.append 2 2 1 2 2 [] 2 true false), sv (.fsm 2), sv (.fsm 2)]
/-- 1 saves two snapshots, drops what the first one covers, removes entries from memory, appends 8. -/
def two : List J :=
  [sv (.saveSnap 1 1), sv (.saveSnap 1 2), .clear 1 ⟨2, 2⟩, .begin 1, .exec 1, .fin 1, .clear 1 ⟨2, 2⟩,
   sv (.apply 1 [8]), .ask 1 5, sv (.apply 1 [9]), .begin 1, .flush 1 1, .exec 1, .flush 1 1, .fin 1]
/-- 2 becomes leader of term 3 and replaces 8 and 9 at 1; the truncation fails half way and the process of 1 ends. -/
def three : List J :=
  [sv (.elect 2), sv (.electB 2 ⟨3, (2, 2), 0⟩ true true), sv (.voteReq 3 3 2 (2, 2) none),
   sv (.voteReqB 3 ⟨3, 2, (2, 2), 1, (0, 0)⟩ true true true),
   sv (.voteRes 2 ⟨3, 3, 1⟩ true false false 3 1 true),
   sv (.replSend 2 1 2), sv (.replRead 2 (.send 3 1 2 2 2) 1),
   sv (.append 1 3 2 2 2 [ce 3 c3] 2 true false), .begin 1, .failJob 1 2]
/-- 1 starts again with the half truncated log and follows 2. -/
def four : List J :=
  [.die 1 1, .skip 1, sv (.append 1 3 2 2 2 [ce 3 c3] 2 true false), .begin 1, .exec 1, .flush 1 1, .fin 1]

/-- 1 sends entries 1 to 4 to 2, the request is delayed; a second one with entries 1 to 3 arrives, they are
committed, and 2 saves two snapshots and compacts its log up to index 2. -/
def late : List J :=
  [sv (.elect 1), sv (.electB 1 ⟨2, (0, 0), 0⟩ true true), sv (.voteReq 2 2 1 (0, 0) none),
   sv (.voteReqB 2 ⟨2, 1, (0, 0), 1, (0, 0)⟩ true true true),
   sv (.voteRes 1 ⟨2, 2, 1⟩ true false false 2 1 true),
   sv (.apply 1 [7, 8, 9]), sv (.replSend 1 2 0), sv (.replRead 1 (.send 2 2 0 0 0) 4),
   sv (.replSend 1 2 0), sv (.replRead 1 (.send 2 2 0 0 0) 3),
   sv (.append 2 2 1 0 0 [ce 2 c3, da 2 7, da 2 8] 0 true false), .begin 2, .flush 2 1, .fin 2,
   .begin 1, .flush 1 2, .fin 1, sv (.replRes 1 2 1 3 3), sv (.replAck 1 (.ack 2 2 1 3)),
   sv (.replSend 1 2 3), sv (.replRead 1 (.send 2 2 3 2 3) 0),
   sv (.append 2 2 1 3 2 [] 3 true false), sv (.fsm 2), sv (.fsm 2), sv (.fsm 2),
   sv (.saveSnap 2 2), sv (.saveSnap 2 3)]

/-- 2 leads term 2 and appends 7; 1 leads term 3 and appends 8, both without replicating. 2 leads term 4 and
replicates to 3, and to 1, whose disk is slow. A heartbeat tells 1 that all is committed, and 1 applies it. -/
def stale : List J :=
  [sv (.elect 2), sv (.electB 2 ⟨2, (0, 0), 0⟩ true true), sv (.voteReq 3 2 2 (0, 0) none),
   sv (.voteReqB 3 ⟨2, 2, (0, 0), 1, (0, 0)⟩ true true true),
   sv (.voteRes 2 ⟨3, 2, 1⟩ true false false 2 1 true), sv (.apply 2 [7]), .begin 2, .flush 2 2, .fin 2,
   sv (.stepDown 1 2 true), sv (.elect 1), sv (.electB 1 ⟨3, (0, 0), 0⟩ true true), sv (.voteReq 3 3 1 (0, 0) none),
   sv (.voteReqB 3 ⟨3, 1, (0, 0), 2, (0, 0)⟩ true true true),
   sv (.voteRes 1 ⟨3, 3, 1⟩ true false false 3 2 true), sv (.apply 1 [8]), .begin 1, .flush 1 2, .fin 1,
   sv (.stepDown 2 3 true), sv (.elect 2), sv (.electB 2 ⟨4, (2, 2), 0⟩ true true), sv (.voteReq 3 4 2 (2, 2) none),
   sv (.voteReqB 3 ⟨4, 2, (2, 2), 3, (0, 0)⟩ true true true),
   sv (.voteRes 2 ⟨3, 4, 3⟩ true false false 4 3 true), .begin 2, .flush 2 1, .fin 2,
   sv (.replSend 2 3 0), sv (.replRead 2 (.send 4 3 0 0 0) 3),
   sv (.append 3 4 2 0 0 [ce 2 c3, da 2 7, ce 4 c3] 0 true false), .begin 3, .flush 3 1, .fin 3,
   sv (.replRes 2 3 1 3 3), sv (.replAck 2 (.ack 4 3 1 3)),
   sv (.replSend 2 1 0), sv (.replRead 2 (.send 4 1 0 0 3) 3),
   sv (.append 1 4 2 0 0 [ce 2 c3, da 2 7, ce 4 c3] 3 true false),
   sv (.replSend 2 1 3), sv (.replRead 2 (.send 4 1 3 4 3) 0), sv (.append 1 4 2 3 4 [] 3 true false),
   sv (.fsm 1), sv (.fsm 1), sv (.fsm 1)]

end Braft.Cl.JTraces
