/-
Model of NodeImpl::ConfigurationCtx (node.h:331-388, node.cpp:3202-3361) and of the functions that drive it:
add_peer, remove_peer, change_peers and unsafe_register_conf_change (node.cpp:855-919), reset_peers (921-966),
on_configuration_change_done with ConfigurationChangeDone (94-125, 708-720), on_caughtup with OnCaughtUp (722-792),
step_down (1793-1878), become_leader (1935-1975), unsafe_apply_configuration (2081-2107), transfer_leadership_to and
handle_transfer_timeout (1173-1262), on_error (1348-1367), shutdown (996-1025), stop_replicator (2898-2906).

* A configuration is a list of peers that is used as a set (Verif/Peer.lean proves this of Configuration).
* Everything inside one critical section of NodeImpl::_mutex is one step. The closures OnCaughtUp and
  ConfigurationChangeDone run at any later time, in any order, each once: `waits` and `pend` hold those that have not
  run. A ConfigurationChangeDone runs with OK only if its entry committed (C12, C14), for which it must be in the log.
* Every request has a closure; its number is its position in `reqs`.
* wait_caughtup (replicator.cpp:1414-1424) fails only for a peer without replicator, so in `start` only
  add_replicator can fail.
* A failed CHECK sets `bad`; the program goes on.
-/
set_option linter.unusedSectionVars false
set_option linter.unusedSimpArgs false
set_option linter.unusedVariables false

namespace Braft.ConfCtx

/-- ConfigurationCtx::Stage (node.h:334-340). -/
inductive Stage | none | catching | joint | stable
deriving DecidableEq, Repr

/-- NodeImpl::State (raft.h); `down`: STATE_ERROR and everything beyond. -/
inductive Role | leader | transferring | candidate | follower | down
deriving DecidableEq, Repr

/-- The statuses with which closures of requests run. -/
inductive Code | ok | eperm | ebusy | ecatchup
deriving DecidableEq, Repr

/-- A configuration entry (LogEntry::peers, old_peers). -/
structure Entry (P : Type) where
  conf : List P
  old : Option (List P)
deriving DecidableEq, Repr

/-- A ConfigurationChangeDone that has not run (node.cpp:94-125). `inLog`: append_entries took the entry. -/
structure Pend (P : Type) where
  term : Nat
  entry : Entry P
  inLog : Bool
deriving DecidableEq, Repr

/-- The fields of NodeImpl and of ConfigurationCtx, and the history: `reqs` the configurations asked for, `ran` the
closures of requests that have run, `subs` the entries submitted (with the term, last one first), `comm` those whose
closure has run with OK. -/
structure State (P : Type) where
  self : P
  role : Role
  term : Nat
  conf : List P
  old : List P
  stage : Stage
  nchanges : Nat
  version : Nat
  new : List P
  olds : List P
  adding : List P
  done : Option Nat
  repl : List P
  waits : List (P × Nat × Nat)
  pend : List (Pend P)
  reqs : List (List P)
  ran : List (Nat × Code)
  subs : List (Nat × Entry P)
  comm : List (Nat × Entry P)
  bad : Bool

variable {P : Type} [DecidableEq P]

/-- CHECK(c). -/
def State.check (s : State P) (c : Bool) : State P := { s with bad := s.bad || !c }

/-- is_busy (node.h:368). -/
def State.busy (s : State P) : Bool := decide (s.stage ≠ .none)

/-- Configuration::diffs (configuration.h:273-281): what is in `a` and not in `b`. -/
def minus (a b : List P) : List P := a.filter (fun p => decide (p ∉ b))

/-- Configuration::equals (configuration.h:256-271). -/
def sameSet (a b : List P) : Bool := decide (∀ p ∈ a, p ∈ b) && decide (∀ p ∈ b, p ∈ a)

/-- The vector of old peers as Configuration. -/
def Entry.olds (e : Entry P) : List P := e.old.getD []

/-- unsafe_apply_configuration (node.cpp:2081-2107); `logOk`: the log manager takes the entry (it refuses after an
error), and check_and_set_configuration then sets _conf to it. -/
def State.submit (s : State P) (e : Entry P) (logOk : Bool) : State P :=
  let s1 := s.check s.busy
  let s2 := { s1 with pend := s1.pend ++ [⟨s1.term, e, logOk⟩], subs := (s1.term, e) :: s1.subs }
  if logOk then { s2 with conf := e.conf, old := e.olds } else s2

/-- NodeImpl::stop_replicator(keep, drop) (node.cpp:2898-2906). -/
def State.stopRepl (s : State P) (keep drop : List P) : State P :=
  { s with repl := s.repl.filter (fun p => !(decide (p ∈ drop) && decide (p ∉ keep) && decide (p ≠ s.self))) }

/-- ConfigurationCtx::reset (node.cpp:3325-3361); `st = none` is the NULL of step_down. -/
def State.reset (s : State P) (st : Option Code) : State P :=
  if s.stage = .none then s
  else
    let s1 := if st = some .ok then s.stopRepl s.new s.olds else s.stopRepl s.olds s.new
    { s1 with new := [], olds := [], adding := [], version := s.version + 1, stage := .none, nchanges := 0,
              done := none, ran := s.ran ++ (s.done.map (fun i => (i, st.getD .eperm))).toList }

/-- step_down (node.cpp:1793-1878), its effect on these fields. -/
def State.stepDown (s : State P) (term : Nat) : State P :=
  if s.role = .down then s
  else
    let s1 := { s with role := .follower }.reset none
    { s1 with term := if term > s.term then term else s.term, repl := [] }

/-- ConfigurationCtx::next_stage (node.cpp:3285-3323). -/
def State.nextStage (s : State P) (logOk : Bool) : State P :=
  let s := s.check s.busy
  match s.stage with
  | .catching =>
    if s.nchanges > 1 then { s with stage := .joint }.submit ⟨s.new, some s.olds⟩ logOk
    else { s with stage := .stable }.submit ⟨s.new, none⟩ logOk
  | .joint => { s with stage := .stable }.submit ⟨s.new, none⟩ logOk
  | .stable =>
    let s1 := s.reset (some .ok)
    if s.self ∈ s.new then s1 else s1.stepDown s.term
  | .none => s.check false

/-- ConfigurationCtx::on_caughtup (node.cpp:3256-3283). -/
def State.ctxCaughtUp (s : State P) (version : Nat) (p : P) (succ logOk : Bool) : State P :=
  if version ≠ s.version then s
  else
    let s1 := s.check (decide (s.stage = .catching))
    if succ then
      let s2 := { s1 with adding := s1.adding.filter (fun q => decide (q ≠ p)) }
      if s2.adding.isEmpty then s2.nextStage logOk else s2
    else s1.reset (some .ecatchup)

/-- The loop of ConfigurationCtx::start (node.cpp:3220-3240); `addOk`: add_replicator succeeds. -/
def State.startLoop (s : State P) (addOk : P → Bool) : List P → State P
  | [] => s
  | p :: ps =>
    if p ∈ s.repl ∨ addOk p = true then
      { s with repl := if p ∈ s.repl then s.repl else p :: s.repl,
               waits := s.waits ++ [(p, s.term, s.version)] }.startLoop addOk ps
    else s.ctxCaughtUp s.version p false true

/-- ConfigurationCtx::start (node.cpp:3202-3241). -/
def State.start (s : State P) (oldc newc : List P) (i : Nat) (addOk : P → Bool) (logOk : Bool) : State P :=
  let s1 := (s.check !s.busy).check s.done.isNone
  let s2 := { s1 with done := some i, stage := .catching, olds := oldc, new := newc,
                      nchanges := (minus newc oldc).length + (minus oldc newc).length }
  if (minus newc oldc).isEmpty then s2.nextStage logOk
  else { s2 with adding := minus newc oldc }.startLoop addOk (minus newc oldc)

/-- A closure of a request runs at once. -/
def State.answer (s : State P) (i : Nat) (c : Code) : State P := { s with ran := s.ran ++ [(i, c)] }

/-- change_peers (node.cpp:916-919) with unsafe_register_conf_change (855-891). -/
def State.change (s : State P) (newc : List P) (addOk : P → Bool) (logOk : Bool) : State P :=
  let i := s.reqs.length
  let s1 := { s with reqs := s.reqs ++ [newc] }
  if s.role ≠ .leader then s1.answer i (if s.role = .transferring then .ebusy else .eperm)
  else if s.busy then s1.answer i .ebusy
  else if sameSet s.conf newc then s1.answer i .ok
  else s1.start s.conf newc i addOk logOk

/-- add_peer (node.cpp:902-907). -/
def State.addPeer (s : State P) (p : P) : (P → Bool) → Bool → State P :=
  s.change (if p ∈ s.conf then s.conf else s.conf ++ [p])

/-- remove_peer (node.cpp:909-914). -/
def State.removePeer (s : State P) (p : P) : (P → Bool) → Bool → State P :=
  s.change (s.conf.filter (fun q => decide (q ≠ p)))

/-- The outcome of a wait for a peer to catch up: OK; a timeout of a live peer for which wait_caughtup succeeds; any
other failure. -/
inductive Caught | ok | retry | fail
deriving DecidableEq, Repr

/-- NodeImpl::on_caughtup (node.cpp:748-792), run by the `k`-th OnCaughtUp. -/
def State.caughtUp (s : State P) (k : Nat) (c : Caught) (logOk : Bool) : State P :=
  match s.waits[k]? with
  | none => s
  | some (p, t, v) =>
    let s1 := { s with waits := s.waits.eraseIdx k }
    if s.role ≠ .leader ∨ t ≠ s.term then s1
    else match c with
      | .ok => s1.ctxCaughtUp v p true logOk
      | .retry => { s1 with waits := s1.waits ++ [(p, s.term, v)] }
      | .fail => s1.ctxCaughtUp v p false logOk

/-- ConfigurationChangeDone::Run (node.cpp:96-105) of the `k`-th pending one and on_configuration_change_done
(708-720). -/
def State.entryDone (s : State P) (k : Nat) (ok logOk : Bool) : State P :=
  match s.pend[k]? with
  | none => s
  | some p =>
    let s1 := { s with pend := s.pend.eraseIdx k }
    if ok && p.inLog then
      let s2 := { s1 with comm := (p.term, p.entry) :: s1.comm }
      if (s.role = .leader ∨ s.role = .transferring) ∧ p.term = s.term then s2.nextStage logOk else s2
    else s1

/-- ConfigurationCtx::flush (node.cpp:3243-3256) -/
def State.flush (s : State P) (logOk : Bool) : State P :=
  let s1 := s.check !s.busy
  let s2 : State P :=
    if s.old.isEmpty then { s1 with new := s.conf, stage := .stable, olds := s.conf }
    else { s1 with new := s.conf, stage := .joint, olds := s.old }
  s2.submit ⟨s.conf, if s.old.isEmpty then none else some s.old⟩ logOk

/-- become_leader (node.cpp:1935-1975); `addOk`: add_replicator succeeds. -/
def State.becomeLeader (s : State P) (addOk : P → Bool) (logOk : Bool) : State P :=
  if s.role = .candidate then
    ({ s with role := .leader, repl := (s.conf ++ s.old).filter (fun p => decide (p ≠ s.self) && addOk p) }.check !s.busy).flush logOk
  else s

/-- elect_self (node.cpp:1680-1708), by a follower or again by a candidate, if it is a member. -/
def State.elect (s : State P) : State P :=
  if (s.role = .follower ∨ s.role = .candidate) ∧ (s.self ∈ s.conf ∨ s.self ∈ s.old) then { s with role := .candidate, term := s.term + 1 } else s

/-- A follower's configuration changes with its log (node.cpp:2560-2573 and others) or with a snapshot. -/
def State.follow (s : State P) (conf old : List P) : State P :=
  if s.role = .follower then { s with conf := conf, old := old } else s

/-- transfer_leadership_to (node.cpp:1189-1262): refused while a change is in progress. `ok`: the replicator accepts. -/
def State.transfer (s : State P) (ok : Bool) : State P :=
  if s.role = .leader ∧ s.busy = false ∧ ok = true then { s with role := .transferring } else s

/-- handle_transfer_timeout (node.cpp:1173-1187). -/
def State.transferTimeout (s : State P) (term : Nat) : State P :=
  if term = s.term ∧ s.role = .transferring then { s with role := .leader } else s

/-- reset_peers (node.cpp:921-966). -/
def State.resetPeers (s : State P) (newc : List P) : State P :=
  if newc.isEmpty then s
  else if s.role = .down then s
  else if s.conf.isEmpty then { s with conf := newc }.stepDown (s.term + 1)
  else if s.role = .leader ∧ s.busy = true then s
  else if sameSet s.conf newc then s
  else { s with conf := newc, old := [] }.stepDown (s.term + 1)

/-- on_error (node.cpp:1348-1367) and shutdown (996-1025). -/
def State.goDown (s : State P) : State P := { s.stepDown s.term with role := .down }

/-- NodeImpl::init: a follower. -/
def State.init (self : P) (term : Nat) (conf old : List P) : State P :=
  { self, role := .follower, term, conf, old, stage := .none, nchanges := 0, version := 0, new := [], olds := [],
    adding := [], done := none, repl := [], waits := [], pend := [], reqs := [], ran := [], subs := [], comm := [],
    bad := false }

/-- Everything that happens to these fields, in any order. Configurations are sets. -/
inductive Hist : State P → Prop where
  | init (self : P) (term : Nat) (conf old : List P) (hn : conf.Nodup) : Hist (State.init self term conf old)
  | change {s} (h : Hist s) (newc : List P) (hn : newc.Nodup) (addOk : P → Bool) (logOk : Bool) : Hist (s.change newc addOk logOk)
  | addPeer {s} (h : Hist s) (p : P) (addOk : P → Bool) (logOk : Bool) : Hist (s.addPeer p addOk logOk)
  | removePeer {s} (h : Hist s) (p : P) (addOk : P → Bool) (logOk : Bool) : Hist (s.removePeer p addOk logOk)
  | caughtUp {s} (h : Hist s) (k : Nat) (c : Caught) (logOk : Bool) : Hist (s.caughtUp k c logOk)
  | entryDone {s} (h : Hist s) (k : Nat) (ok logOk : Bool) : Hist (s.entryDone k ok logOk)
  | stepDown {s} (h : Hist s) (term : Nat) : Hist (s.stepDown term)
  | elect {s} (h : Hist s) : Hist s.elect
  | becomeLeader {s} (h : Hist s) (addOk : P → Bool) (logOk : Bool) : Hist (s.becomeLeader addOk logOk)
  | follow {s} (h : Hist s) (conf old : List P) (hn : conf.Nodup) : Hist (s.follow conf old)
  | transfer {s} (h : Hist s) (ok : Bool) : Hist (s.transfer ok)
  | transferTimeout {s} (h : Hist s) (term : Nat) : Hist (s.transferTimeout term)
  | resetPeers {s} (h : Hist s) (newc : List P) (hn : newc.Nodup) : Hist (s.resetPeers newc)
  | goDown {s} (h : Hist s) : Hist s.goDown

end Braft.ConfCtx
