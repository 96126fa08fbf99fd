import Verif.Ballot
/-
Readonly bookkeeping of a node: node.cpp:3363-3425 (`enter_readonly_mode`, `leave_readonly_mode`,
`readonly`, `change_readonly_config`, `check_majority_nodes_readonly`), node.cpp:1791-1860
(`step_down`, the parts touching these fields), node.cpp:1918-1956 (`become_leader`, same),
node.cpp:3325-3360 (`ConfigurationCtx::reset`), replicator.cpp:1218-1262 and 1584-1600.

A replicator's `_readonly_index` is only compared with 0 by this code, so it is modelled by one
`Bool`. The replicator lock and the case of a replicator destroyed while it is still in the map
are not modelled.
-/
set_option linter.unusedSectionVars false
set_option linter.unusedSimpArgs false
set_option linter.unusedVariables false

namespace Braft
namespace Readonly
universe u

/-- node.h: the three roles `apply` and `change_readonly_config` tell apart. Candidates and
followers behave alike here (`other`). -/
inductive Role | leader | transferring | other
deriving DecidableEq, Repr

/-- node.h `_current_term`, `_state`, `_conf.conf`, `_conf.old_conf`, `_node_readonly`,
`_majority_nodes_readonly` and the replicator map with each replicator's readonly mark. -/
structure Node (P : Type u) where
  self : P
  term : Nat
  role : Role
  conf : List P
  old : List P
  nodeRo : Bool
  majRo : Bool
  repl : List (P × Bool)
deriving DecidableEq, Repr

variable {P : Type u} [DecidableEq P]

/-- replicator.cpp:1593-1600 `ReplicatorGroup::readonly`, 1253-1262: false for unknown peers. -/
def replReadonly (repl : List (P × Bool)) (p : P) : Bool :=
  match repl.find? (fun x => x.1 == p) with
  | none => false
  | some x => x.2

/-- replicator.cpp:1584-1591, 1227-1250 `change_readonly_config`: sets the mark of a known peer. -/
def replMark (repl : List (P × Bool)) (p : P) (ro : Bool) : List (P × Bool) :=
  repl.map (fun x => if x.1 = p then (x.1, ro) else x)

/-- replicator.cpp:1390-1410 `ReplicatorGroup::add_replicator`: a known peer is left alone. -/
def replAdd (repl : List (P × Bool)) (p : P) : List (P × Bool) :=
  if repl.any (fun x => x.1 == p) then repl else repl ++ [(p, false)]

/-- node.cpp:3406-3415: number of readonly members of `conf`. -/
def countReadonly (n : Node P) : List P → Nat
  | [] => 0
  | p :: ps =>
    (if p = n.self then (if n.nodeRo then 1 else 0)
     else if replReadonly n.repl p then 1 else 0) + countReadonly n ps

/-- node.cpp:3403-3425 `check_majority_nodes_readonly(conf)`. -/
def checkConf (n : Node P) (conf : List P) : Node P :=
  let writable := conf.length - countReadonly n conf
  { n with majRo := !decide (writable ≥ conf.length / 2 + 1) }

/-- node.cpp:3396-3401 `check_majority_nodes_readonly()`. -/
def check (n : Node P) : Node P :=
  let n1 := checkConf n n.conf
  if n1.old.isEmpty then n1 else checkConf n1 n1.old

/-- node.cpp:3386-3394 `change_readonly_config`; the Boolean is `return 0`. -/
def changeReadonly (n : Node P) (term : Nat) (peer : P) (ro : Bool) : Node P × Bool :=
  if term ≠ n.term ∧ n.role ≠ .leader then (n, false)
  else (check { n with repl := replMark n.repl peer ro }, true)

/-- node.cpp:3363-3370 and 3372-3379. -/
def enterReadonly (n : Node P) : Node P := if !n.nodeRo then { n with nodeRo := true } else n
def leaveReadonly (n : Node P) : Node P := if n.nodeRo then { n with nodeRo := false } else n

/-- node.cpp:3381-3384 `readonly()`. -/
def readonly (n : Node P) : Bool := n.nodeRo || n.majRo

/-- node.cpp:1918-1945 `become_leader`: replicators for the other members of both configurations
(the set is listed here with repetitions, which `replAdd` ignores). -/
def becomeLeader (n : Node P) : Node P :=
  { n with role := .leader, repl := ((n.conf ++ n.old).filter (· ≠ n.self)).foldl replAdd n.repl }

/-- node.cpp:1791-1860 `step_down`: lines 1827-1829 and 1849-1858. -/
def stepDown (n : Node P) (term : Nat) : Node P :=
  { n with role := .other, majRo := false, term := max n.term term, repl := [] }

/-- node.cpp:1700-1708 `elect_self` takes a new term. -/
def elect (n : Node P) : Node P := { n with term := n.term + 1 }

/-- node.cpp:1240-1245 `transfer_leadership_to` / 1173-1187 `handle_transfer_timeout`. -/
def setTransferring (n : Node P) : Node P := { n with role := .transferring }
def backToLeader (n : Node P) : Node P := { n with role := .leader }

/-- node.cpp:2106 `check_and_set_configuration(&_conf)` after a configuration entry: the
configuration in force changes and nothing is recomputed. -/
def setConf (n : Node P) (conf old : List P) : Node P := { n with conf := conf, old := old }

/-- node.cpp:3220-3245: replicators of the peers being added. -/
def addReplicator (n : Node P) (p : P) : Node P := { n with repl := replAdd n.repl p }

/-- node.cpp:3325-3351 `ConfigurationCtx::reset`: replicators of the peers given up are stopped,
then the flag is recomputed. -/
def ctxReset (n : Node P) (keep : List P) : Node P :=
  check { n with repl := n.repl.filter (fun x => decide (x.1 ∈ keep)) }

/-- What can happen to these fields. -/
inductive Op (P : Type u)
  | elect | becomeLeader | stepDown (term : Nat) | transfer | transferTimeout
  | report (term : Nat) (peer : P) (ro : Bool)
  | enter | leave
  | setConf (conf old : List P) | addRepl (p : P) | ctxReset (keep : List P)
deriving DecidableEq, Repr

/-- One operation under the node mutex. `become_leader` is only called on a candidate
(node.cpp:1919), transfers only on a leader (1195, 1178). -/
def step (n : Node P) : Op P → Option (Node P)
  | .elect => if n.role = .other then some (elect n) else none
  | .becomeLeader => if n.role = .other then some (becomeLeader n) else none
  | .stepDown t => some (stepDown n t)
  | .transfer => if n.role = .leader then some (setTransferring n) else none
  | .transferTimeout => if n.role = .transferring then some (backToLeader n) else none
  | .report t p ro => some (changeReadonly n t p ro).1
  | .enter => some (enterReadonly n)
  | .leave => some (leaveReadonly n)
  | .setConf c o => some (setConf n c o)
  | .addRepl p => if n.role = .leader then some (addReplicator n p) else none
  | .ctxReset k => some (ctxReset n k)

/-- Runs a sequence of operations. -/
def run (n : Node P) : List (Op P) → Option (Node P)
  | [] => some n
  | o :: os => match step n o with
    | none => none
    | some n' => run n' os

/-- Specification: the members that can still write: the node itself unless its own readonly mode
is on, and the others unless their last report said readonly. -/
def Writable (n : Node P) (p : P) : Bool :=
  if p = n.self then !n.nodeRo else !replReadonly n.repl p

theorem countReadonly_add (n : Node P) (conf : List P) :
    countReadonly n conf + conf.countP (Writable n) = conf.length := by
  induction conf with
  | nil => rfl
  | cons p ps ih =>
    have hw : Writable n p = (if p = n.self then !n.nodeRo else !replReadonly n.repl p) := rfl
    simp only [countReadonly, List.countP_cons, List.length_cons, hw]
    by_cases hp : p = n.self
    · simp only [hp, if_true]
      cases hn : n.nodeRo <;> simp <;> omega
    · simp only [hp, if_false]
      cases hr : replReadonly n.repl p <;> simp <;> omega

theorem checkConf_majRo (n : Node P) (conf : List P) :
    (checkConf n conf).majRo = true ↔ ¬ Majority conf (Writable n) := by
  have h := countReadonly_add n conf
  simp only [checkConf, Majority]
  simp
  omega

theorem writable_congr {n m : Node P} (h1 : n.self = m.self) (h2 : n.nodeRo = m.nodeRo)
    (h3 : n.repl = m.repl) : Writable n = Writable m := by
  funext p; simp [Writable, h1, h2, h3]

/-- The configuration whose majority decides: the old one in joint mode. -/
def deciding (n : Node P) : List P := if n.old.isEmpty then n.conf else n.old

theorem check_majRo (n : Node P) :
    (check n).majRo = true ↔ ¬ Majority (deciding n) (Writable n) := by
  unfold check deciding
  have ho : (checkConf n n.conf).old = n.old := rfl
  simp only [ho]
  cases hc : n.old.isEmpty with
  | true => simp only [if_true]; exact checkConf_majRo n n.conf
  | false =>
    simp only [Bool.false_eq_true, if_false]
    rw [checkConf_majRo]
    exact Iff.rfl

theorem check_fields (n : Node P) : (check n).self = n.self ∧ (check n).nodeRo = n.nodeRo ∧
    (check n).repl = n.repl ∧ (check n).conf = n.conf ∧ (check n).old = n.old ∧
    (check n).role = n.role ∧ (check n).term = n.term := by
  unfold check
  by_cases h : (checkConf n n.conf).old.isEmpty = true
  · simp only [h, if_true]; exact ⟨rfl, rfl, rfl, rfl, rfl, rfl, rfl⟩
  · simp only [h, if_false]; exact ⟨rfl, rfl, rfl, rfl, rfl, rfl, rfl⟩

theorem check_exact (n : Node P) :
    (check n).majRo = true ↔ ¬ Majority (deciding (check n)) (Writable (check n)) := by
  obtain ⟨a, b, c, d, e, _, _⟩ := check_fields n
  rw [check_majRo, writable_congr a b c]
  unfold deciding
  rw [d, e]

/-- The flag is exact. -/
def Exact (n : Node P) : Prop := n.majRo = true ↔ ¬ Majority (deciding n) (Writable n)

/-- Operations after which the flag may be out of date: the node's own mode changed or the
configuration changed. -/
def disturbs : Op P → Bool
  | .enter => true
  | .leave => true
  | .setConf _ _ => true
  | _ => false

theorem replReadonly_foldl_add (ps : List P) (repl : List (P × Bool)) (p : P) :
    replReadonly (ps.foldl replAdd repl) p = replReadonly repl p := by
  induction ps generalizing repl with
  | nil => rfl
  | cons q qs ih =>
    rw [List.foldl_cons, ih]
    unfold replAdd
    split
    · rfl
    · unfold replReadonly
      rw [List.find?_append]
      cases h : repl.find? (fun x => x.1 == p) with
      | some x => rfl
      | none =>
        by_cases hq : (q == p) = true <;> simp [hq]

theorem majority_all (conf : List P) (hne : conf ≠ []) (W : P → Bool) (h : ∀ p, W p = true) :
    Majority conf W := by
  unfold Majority
  have : conf.countP W = conf.length := List.countP_eq_length.mpr (fun p _ => h p)
  rw [this]
  have : 0 < conf.length := List.length_pos_iff.mpr hne
  omega

theorem writable_nil {n : Node P} (hr : n.repl = []) (hn : n.nodeRo = false) (p : P) :
    Writable n p = true := by
  unfold Writable; rw [hr, hn]; simp [replReadonly]

theorem exact_step {n n' : Node P} (o : Op P) (hs : step n o = some n') (hd : disturbs o = false)
    (hne : deciding n ≠ []) (hnr : n.nodeRo = false) (h : Exact n) :
    Exact n' ∧ deciding n' = deciding n ∧ n'.nodeRo = false := by
  cases o with
  | elect =>
    simp only [step] at hs; split at hs <;> simp at hs
    subst hs; exact ⟨h, rfl, hnr⟩
  | becomeLeader =>
    simp only [step] at hs; split at hs <;> simp at hs
    subst hs
    refine ⟨?_, rfl, hnr⟩
    have hw : Writable (becomeLeader n) = Writable n := by
      funext p; simp only [Writable, becomeLeader, replReadonly_foldl_add]
    unfold Exact
    rw [hw]; exact h
  | stepDown t =>
    simp only [step, Option.some.injEq] at hs; subst hs
    refine ⟨?_, rfl, hnr⟩
    have hw : ∀ p, Writable (stepDown n t) p = true := fun p =>
      writable_nil (n := stepDown n t) rfl hnr p
    have hm : Majority (deciding n) (Writable (stepDown n t)) := majority_all _ hne _ hw
    have hd' : deciding (stepDown n t) = deciding n := rfl
    constructor
    · intro hx; simp [stepDown] at hx
    · intro hx; exact absurd (hd' ▸ hm) hx
  | transfer =>
    simp only [step] at hs; split at hs <;> simp at hs
    subst hs; exact ⟨h, rfl, hnr⟩
  | transferTimeout =>
    simp only [step] at hs; split at hs <;> simp at hs
    subst hs; exact ⟨h, rfl, hnr⟩
  | report t p ro =>
    simp only [step, Option.some.injEq] at hs; subst hs
    unfold changeReadonly
    by_cases hc : t ≠ n.term ∧ n.role ≠ .leader
    · rw [if_pos hc]; exact ⟨h, rfl, hnr⟩
    · rw [if_neg hc]
      obtain ⟨a, b, c, d, e, _, _⟩ := check_fields { n with repl := replMark n.repl p ro }
      refine ⟨check_exact _, ?_, ?_⟩
      · unfold deciding; rw [d, e]
      · rw [b]; exact hnr
  | enter => simp [disturbs] at hd
  | leave => simp [disturbs] at hd
  | setConf c o => simp [disturbs] at hd
  | addRepl p =>
    simp only [step] at hs; split at hs <;> simp at hs
    subst hs
    refine ⟨?_, rfl, hnr⟩
    have hw : Writable (addReplicator n p) = Writable n := by
      funext q
      have := replReadonly_foldl_add [p] n.repl q
      simp only [List.foldl_cons, List.foldl_nil] at this
      simp only [Writable, addReplicator, this]
    unfold Exact
    rw [hw]; exact h
  | ctxReset k =>
    simp only [step, Option.some.injEq] at hs; subst hs
    unfold ctxReset
    obtain ⟨a, b, c, d, e, _, _⟩ :=
      check_fields { n with repl := n.repl.filter (fun x => decide (x.1 ∈ k)) }
    refine ⟨check_exact _, ?_, ?_⟩
    · unfold deciding; rw [d, e]
    · rw [b]; exact hnr

theorem exact_run {n n' : Node P} (os : List (Op P)) (hr : run n os = some n')
    (hd : ∀ o ∈ os, disturbs o = false)
    (hne : deciding n ≠ []) (hnr : n.nodeRo = false) (h : Exact n) :
    Exact n' ∧ deciding n' = deciding n ∧ n'.nodeRo = false := by
  induction os generalizing n with
  | nil => simp [run] at hr; subst hr; exact ⟨h, rfl, hnr⟩
  | cons o os ih =>
    simp only [run] at hr
    cases hs : step n o with
    | none => rw [hs] at hr; simp at hr
    | some m =>
      rw [hs] at hr
      obtain ⟨h1, h2, h3⟩ := exact_step o hs (hd o (List.mem_cons_self ..)) hne hnr h
      obtain ⟨g1, g2, g3⟩ := ih hr (fun o ho => hd o (List.mem_cons_of_mem _ ho))
        (h2 ▸ hne) h3 h1
      exact ⟨g1, g2.trans h2, g3⟩

end Readonly
end Braft
