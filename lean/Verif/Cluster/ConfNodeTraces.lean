import Verif.Cluster.ConfNode
import Verif.Cluster.Traces
/-
Executions of the cluster with its ConfigurationCtxs.
-/
set_option linter.unusedVariables false

namespace Braft.CN
open Braft.Raft Braft.Cl
section
variable {N D : Type} [DecidableEq N] [DecidableEq D]

/-- Run a list of actions; `none` if one of them is not possible. -/
def runF (p : CParams) (c0 : Conf N) : FSys N D → List (FAct N D) → Option (FSys N D)
  | s, [] => some s
  | s, a :: as => match fstep p c0 s a with
    | none => none
    | some s' => runF p c0 s' as

theorem fsteps_append {p : CParams} {c0 : Conf N} {a b c : FSys N D} (h1 : FSteps p c0 a b) (h2 : FSteps p c0 b c) : FSteps p c0 a c := by
  induction h2 with
  | refl => exact h1
  | tail x _ hs ih => exact .tail x ih hs

theorem fsteps_of_run {p : CParams} {c0 : Conf N} : ∀ (as : List (FAct N D)) {s s' : FSys N D},
    runF p c0 s as = some s' → FSteps p c0 s s'
  | [], s, s', h => by
    have : s = s' := Option.some.inj h
    subst this; exact .refl
  | a :: as, s, s', h => by
    unfold runF at h
    split at h
    · cases h
    · next s1 h1 => exact fsteps_append (.tail a .refl h1) (fsteps_of_run as h)

theorem freach_steps {p : CParams} {c0 : Conf N} {s s' : FSys N D} (h : FReach p c0 s) (h' : FSteps p c0 s s') : FReach p c0 s' := by
  induction h' with
  | refl => exact h
  | tail a _ hs ih => exact .step a ih hs

/-- The state after a list of actions from `s`. -/
def afterF (p : CParams) (c0 : Conf N) (s : FSys N D) (as : List (FAct N D)) : FSys N D := (runF p c0 s as).getD s

theorem afterF_ok {p : CParams} {c0 : Conf N} {s : FSys N D} {as : List (FAct N D)} (h : (runF p c0 s as).isSome = true) :
    FSteps p c0 s (afterF p c0 s as) := by
  cases hr : runF p c0 s as with
  | none => rw [hr] at h; cases h
  | some s' =>
    have : afterF p c0 s as = s' := by rw [afterF, hr]; rfl
    rw [this]; exact fsteps_of_run as hr
end

namespace Tr
open Braft.Cl.Traces

def on (as : List A) : List (FAct Nat Nat) := as.map (fun a => .srv a (fun _ => true))

/-- Leader 1 sends `n` entries of term 2 from index `k` on to 2 and 2 answers; then 1 counts them. -/
def repl (k n cm : Nat) (es : List (Entry Nat Nat)) : List (FAct Nat Nat) :=
  on ([.replSend 1 2 k, .replRead 1 (.send 2 2 k (if k = 0 then 0 else 2) cm) n,
    .append 2 2 1 k (if k = 0 then 0 else 2) es cm true false] ++ List.replicate (n + 1) (.disk 2) ++
    List.replicate (2 * n) (.disk 1) ++ [.replRes 1 2 (k + 1) (k + n) n, .replAck 1 (.ack 2 2 (k + 1) (k + n))])

/-- 1 is elected by 1 and 2 in term 2; its configuration entry commits and the closure runs. -/
def lead : List (FAct Nat Nat) :=
  on [.elect 1, .electB 1 ⟨2, (0, 0), 0⟩ true true, .voteReq 2 2 1 (0, 0) none,
    .voteReqB 2 ⟨2, 1, (0, 0), 1, (0, 0)⟩ true true true, .voteRes 1 ⟨2, 2, 1⟩ true false false 2 1 true] ++
  repl 0 1 0 [ce 2 c3] ++ [.entryDone 1 0 true]

def cj : Conf Nat := { peers := [1, 2, 4], old := [1, 2, 3] }
def cn : Conf Nat := { peers := [1, 2, 4] }

/-- A change to 1, 2, 4: 4 catches up, then the joint configuration enters the log. A second change is refused. -/
def join : List (FAct Nat Nat) :=
  [.change 1 [1, 2, 4] (fun _ => true) true, .caughtUp 1 0 .ok true, .removePeer 1 2 (fun _ => true) true]

/-- The joint configuration commits, its closure runs, and the new configuration enters the log. -/
def joint : List (FAct Nat Nat) := repl 1 1 1 [ce 2 cj] ++ [.entryDone 1 0 true]

/-- That commits too, and the request is answered. -/
def stable : List (FAct Nat Nat) := repl 2 1 2 [ce 2 cn] ++ [.entryDone 1 0 true]

/-- Then 2 takes over in term 3. -/
def next : List (FAct Nat Nat) :=
  on [.elect 2, .electB 2 ⟨3, (2, 3), 0⟩ true true, .voteReq 4 3 2 (2, 3) none,
    .voteReqB 4 ⟨3, 2, (2, 3), 1, (0, 0)⟩ true true true, .voteRes 2 ⟨4, 3, 1⟩ true false false 3 1 true]

end Tr
end Braft.CN
