import Verif.Registry
/-
add_service, the set of addresses that are served, and where nodes may be registered (raft.cpp:89-106, node_manager.cpp:29-80,
115-122, raft_service.cpp:27-29, node.cpp:496-508).

* brpc::Server::AddService refuses a service whose name the server has, and any service once the server runs; it may fail
  otherwise too (`ok`). A refused service stays with the caller, who drops it without running its destructor.
* A call of add_service is two steps: the look at the addresses, and the rest; other calls come between. The services of one
  server are added one call at a time (they are not safe otherwise).
* Destroying a server destroys the services it owns; ~RaftServiceImpl takes its address out of the set.
* IP_ANY is 0.
-/
set_option linter.unusedVariables false
set_option linter.unusedSimpArgs false

namespace Braft.Served
open Braft.NodeManager

abbrev Addr := Nat × Int

/-- A brpc::Server: which services of braft it has. -/
structure Server where
  file : Bool
  raft : Option Addr
  stat : Bool
  cli : Bool
  running : Bool
deriving DecidableEq, Repr

def Server.new : Server := ⟨false, none, false, false, false⟩

structure State where
  /-- NodeManager::_addr_set. -/
  addrs : List Addr
  /-- The servers there are. -/
  srv : Nat → Option Server
  /-- Calls of add_service that have looked at the addresses. -/
  calls : List (Nat × Addr)
  /-- Results of add_service: server, address, 0? -/
  rets : List (Nat × Addr × Bool)

def State.init : State := ⟨[], fun _ => none, [], []⟩

/-- The four calls of AddService (node_manager.cpp:55-74); `ok k`: the k-th does not fail for other reasons. -/
def services (v : Server) (a : Addr) (ok : Nat → Bool) : Server × Bool :=
  if v.running then (v, false)
  else if v.file || !ok 0 then (v, false)
  else
    let v := { v with file := true }
    if v.raft.isSome || !ok 1 then (v, false)
    else
      let v := { v with raft := some a }
      if v.stat || !ok 2 then (v, false)
      else
        let v := { v with stat := true }
        if v.cli || !ok 3 then (v, false)
        else ({ v with cli := true }, true)

/-- A function changed at one place. -/
def upd (f : Nat → Option Server) (i : Nat) (v : Option Server) : Nat → Option Server := fun j => if j = i then v else f j

/-- What happens. -/
inductive Act where
  | make (i : Nat)
  | call (i : Nat) (a : Addr)
  | rest (k : Nat) (ok : Nat → Bool)
  | run (i : Nat)
  | destroy (i : Nat)

/-- One step; none if it cannot be taken. -/
def step (s : State) : Act → Option State
  -- the user makes a server
  | .make i => if (s.srv i).isSome then none else some { s with srv := upd s.srv i (some .new) }
  -- add_service up to the look at the addresses (node_manager.cpp:45-53)
  | .call i a =>
    if (s.srv i).isNone then none
    else if serverExists s.addrs a then some { s with rets := s.rets ++ [(i, a, true)] }
    else some { s with calls := s.calls ++ [(i, a)] }
  -- the rest (node_manager.cpp:55-80)
  | .rest k ok =>
    match s.calls[k]? with
    | none => none
    | some (i, a) =>
      match s.srv i with
      | none => none
      | some v =>
        let r := services v a ok
        some { s with srv := upd s.srv i (some r.1), calls := s.calls.eraseIdx k, rets := s.rets ++ [(i, a, r.2)],
                      addrs := if r.2 then (if s.addrs.contains a then s.addrs else a :: s.addrs) else s.addrs }
  -- the user starts the server
  | .run i => match s.srv i with
    | none => none
    | some v => some { s with srv := upd s.srv i (some { v with running := true }) }
  -- ~Server and ~RaftServiceImpl (raft_service.cpp:27-29, node_manager.cpp:40-43); not during add_service with this server
  | .destroy i => match s.srv i with
    | none => none
    | some v =>
      if s.calls.any (fun c => c.1 == i) then none
      else some { s with srv := upd s.srv i none,
                         addrs := match v.raft with | some a => s.addrs.filter (fun x => x != a) | none => s.addrs }

/-- Everything that can happen. -/
inductive Reach : State → Prop where
  | init : Reach State.init
  | step {s s'} (a : Act) : Reach s → step s a = some s' → Reach s'

/-- NodeManager::add (node_manager.cpp:115-122); `addr`: the address of a peer. NodeImpl::init asks the same before
(node.cpp:503). -/
def addNodeAt {G P : Type} [DecidableEq G] [DecidableEq P] (addrs : List Addr) (addr : P → Addr) (m : Maps G P) (n : Node G P) :
    Maps G P × Bool :=
  if serverExists addrs (addr n.peer) then addNode m n else (m, false)

/-- Steps after a state. -/
inductive Steps (s : State) : State → Prop where
  | refl : Steps s s
  | step {t t'} (a : Act) : Steps s t → Served.step t a = some t' → Steps s t'

theorem services_ok {v : Server} {a : Addr} {ok : Nat → Bool} (h : (services v a ok).2 = true) :
    (services v a ok).1 = ⟨true, some a, true, true, false⟩ := by
  revert h
  unfold services
  dsimp only
  split
  · intro h; cases h
  · rename_i h0
    split
    · intro h; cases h
    · split
      · intro h; cases h
      · split
        · intro h; cases h
        · split
          · intro h; cases h
          · intro _
            have : v.running = false := by cases hr : v.running <;> simp_all
            rw [this]

/-- Whoever has the four services keeps its address in the set of services of the server. -/
theorem services_keep {v : Server} {a b : Addr} {ok : Nat → Bool} (h : v.raft = some b) : (services v a ok).1.raft = some b ∧
    (services v a ok).2 = false ∧ (v.file = true → (services v a ok).1.file = true) ∧ (v.stat = true → (services v a ok).1.stat = true) ∧
    (v.cli = true → (services v a ok).1.cli = true) := by
  unfold services
  dsimp only
  rw [h]
  split
  · simp [h]
  · split
    · simp [h]
    · simp [h]

/-- Serves the address `a`. -/
def Full (v : Server) (a : Addr) : Prop := v.file = true ∧ v.raft = some a ∧ v.stat = true ∧ v.cli = true

theorem inv {s : State} (h : Reach s) : ∀ a ∈ s.addrs, ∃ i v, s.srv i = some v ∧ Full v a := by
  induction h with
  | init => intro a ha; cases ha
  | @step s s' act hr hs ih =>
    cases act with
    | make i =>
      unfold step at hs
      dsimp only at hs
      split at hs
      · cases hs
      · rename_i hn
        cases hs
        intro a ha
        obtain ⟨j, v, hj, hv⟩ := ih a ha
        refine ⟨j, v, ?_, hv⟩
        show upd s.srv i _ j = _
        unfold upd
        rw [if_neg (by intro e; subst e; rw [hj] at hn; exact hn rfl)]
        exact hj
    | call i a =>
      unfold step at hs
      dsimp only at hs
      split at hs
      · cases hs
      · split at hs <;> (cases hs; exact ih)
    | rest k ok =>
      unfold step at hs
      dsimp only at hs
      cases hk : s.calls[k]? with
      | none => rw [hk] at hs; cases hs
      | some x =>
        obtain ⟨i, a⟩ := x
        rw [hk] at hs
        dsimp only at hs
        cases hv : s.srv i with
        | none => rw [hv] at hs; cases hs
        | some v =>
          rw [hv] at hs
          cases hs
          intro b hb
          have old : b ∈ s.addrs → ∃ j w, upd s.srv i (some (services v a ok).1) j = some w ∧ Full w b := by
            intro hb
            obtain ⟨j, w, hj, hw⟩ := ih b hb
            by_cases e : j = i
            · subst e
              rw [hv] at hj; cases hj
              obtain ⟨h1, h2, h3, h4, h5⟩ := services_keep (a := a) (ok := ok) hw.2.1
              exact ⟨j, _, by unfold upd; rw [if_pos rfl], h3 hw.1, h1, h4 hw.2.2.1, h5 hw.2.2.2⟩
            · exact ⟨j, w, by unfold upd; rw [if_neg e]; exact hj, hw⟩
          dsimp only at hb
          cases hr2 : (services v a ok).2 with
          | false => rw [hr2] at hb; exact old hb
          | true =>
            rw [hr2, if_pos rfl] at hb
            have new : ∃ j w, upd s.srv i (some (services v a ok).1) j = some w ∧ Full w a := by
              refine ⟨i, _, by unfold upd; rw [if_pos rfl], ?_⟩
              rw [services_ok hr2]
              exact ⟨rfl, rfl, rfl, rfl⟩
            split at hb
            · exact old hb
            · rcases List.mem_cons.mp hb with e | e
              · subst e; exact new
              · exact old e
    | run i =>
      unfold step at hs
      dsimp only at hs
      cases hv : s.srv i with
      | none => rw [hv] at hs; cases hs
      | some v =>
        rw [hv] at hs
        cases hs
        intro b hb
        obtain ⟨j, w, hj, hw⟩ := ih b hb
        by_cases e : j = i
        · subst e
          rw [hv] at hj; cases hj
          exact ⟨j, { v with running := true }, by show upd _ _ _ _ = _; unfold upd; rw [if_pos rfl], hw⟩
        · exact ⟨j, w, by show upd _ _ _ _ = _; unfold upd; rw [if_neg e]; exact hj, hw⟩
    | destroy i =>
      unfold step at hs
      dsimp only at hs
      cases hv : s.srv i with
      | none => rw [hv] at hs; cases hs
      | some v =>
        rw [hv] at hs
        dsimp only at hs
        split at hs
        · cases hs
        · cases hs
          intro b hb
          dsimp only at hb
          have hb' : b ∈ s.addrs ∧ v.raft ≠ some b := by
            cases hra : v.raft with
            | none => rw [hra] at hb; exact ⟨hb, by simp⟩
            | some a =>
              rw [hra] at hb
              have := List.mem_filter.mp hb
              refine ⟨this.1, ?_⟩
              intro e; cases e
              simpa using this.2
          obtain ⟨j, w, hj, hw⟩ := ih b hb'.1
          refine ⟨j, w, ?_, hw⟩
          show upd _ _ _ _ = _
          unfold upd
          rw [if_neg (by intro e; subst e; rw [hv] at hj; cases hj; exact hb'.2 hw.2.1)]
          exact hj

end Braft.Served
