import Verif.ServiceAddr
/-!
# C91: where nodes may be registered

`Served.Reach` ranges over every history of servers made, started and destroyed and of add_service calls. `Full v a` says that
server v has the four services of braft, with a as the address of its raft service; `Serves a b` (below) that an address b
answers for a: they are equal, or b is all the interfaces with the port of a.
-/
set_option linter.unusedVariables false
set_option linter.unusedSimpArgs false
namespace Braft.Props.ServiceAddr
open Braft.NodeManager Braft.Served

/-- Specification: who listens on `b` is reached at `a`. -/
def Serves (b a : Addr) : Prop := b = a ∨ (b.1 = 0 ∧ b.2 = a.2)

theorem exists_iff (l : List Addr) (a : Addr) : serverExists l a = true ↔ ∃ b ∈ l, Serves b a := by
  unfold serverExists Serves
  obtain ⟨ip, port⟩ := a
  constructor
  · intro h
    simp only [Bool.or_eq_true, Bool.and_eq_true, List.contains_iff_mem] at h
    rcases h with ⟨_, h⟩ | h
    · exact ⟨_, h, Or.inr ⟨rfl, rfl⟩⟩
    · exact ⟨_, h, Or.inl rfl⟩
  · rintro ⟨⟨i, p⟩, hb, h⟩
    simp only [Bool.or_eq_true, Bool.and_eq_true, List.contains_iff_mem]
    rcases h with h | ⟨h1, h2⟩
    · rw [h] at hb; exact Or.inr hb
    · dsimp only at h1 h2
      subst h1 h2
      by_cases e : ip = 0
      · subst e; exact Or.inr hb
      · exact Or.inl ⟨by simpa using e, hb⟩

/-- C91. Whatever the history: an address is taken as served only if a server that exists has all the four services, its raft
service with that address or with that port on all the interfaces. -/
theorem C91_served {s : State} (h : Reach s) (a : Addr) (ha : serverExists s.addrs a = true) :
    ∃ i v b, s.srv i = some v ∧ Serves b a ∧ v.file = true ∧ v.raft = some b ∧ v.stat = true ∧ v.cli = true := by
  obtain ⟨b, hb, hs⟩ := (exists_iff _ _).mp ha
  obtain ⟨i, v, hi, hv⟩ := inv h b hb
  exact ⟨i, v, b, hi, hs, hv⟩

/-- C91. Right after a call of add_service returned 0 the address is served. -/
theorem C91_add_service {s s' : State} (h : Reach s) (act : Act) (hs : step s act = some s') (i : Nat) (a : Addr)
    (hret : s'.rets = s.rets ++ [(i, a, true)]) :
    serverExists s'.addrs a = true ∧
    ∃ j v b, s'.srv j = some v ∧ Serves b a ∧ v.file = true ∧ v.raft = some b ∧ v.stat = true ∧ v.cli = true := by
  have key : serverExists s'.addrs a = true := by
    cases act with
    | make j => unfold step at hs; dsimp only at hs; split at hs <;> cases hs; simp at hret
    | call j b =>
      unfold step at hs; dsimp only at hs
      split at hs
      · cases hs
      · split at hs
        · rename_i he; cases hs; simp at hret; obtain ⟨_, e⟩ := hret; subst e; exact he
        · cases hs; simp at hret
    | rest k ok =>
      unfold step at hs; dsimp only at hs
      cases hk : s.calls[k]? with
      | none => rw [hk] at hs; cases hs
      | some x =>
        obtain ⟨j, b⟩ := x
        rw [hk] at hs; dsimp only at hs
        cases hv : s.srv j with
        | none => rw [hv] at hs; cases hs
        | some v =>
          rw [hv] at hs
          cases hs
          simp at hret
          obtain ⟨_, e, hr⟩ := hret
          subst e
          dsimp only
          rw [hr, if_pos rfl]
          apply (exists_iff _ _).mpr
          refine ⟨b, ?_, Or.inl rfl⟩
          split
          · rename_i hc; exact List.contains_iff_mem.mp hc
          · exact List.mem_cons_self
    | run j =>
      unfold step at hs; dsimp only at hs
      cases hv : s.srv j with
      | none => rw [hv] at hs; cases hs
      | some v => rw [hv] at hs; cases hs; simp at hret
    | destroy j =>
      unfold step at hs; dsimp only at hs
      cases hv : s.srv j with
      | none => rw [hv] at hs; cases hs
      | some v => rw [hv] at hs; dsimp only at hs; split at hs <;> cases hs; simp at hret
  exact ⟨key, C91_served (.step act h hs) a key⟩

theorem services_new {v : Server} {a : Addr} {ok : Nat → Bool} (hr : (services v a ok).2 = true) : v = Server.new := by
  revert hr
  unfold services Server.new
  obtain ⟨f, r, st, c, ru⟩ := v
  dsimp only
  cases ru <;> cases f <;> cases r <;> cases st <;> cases c <;> cases ok 0 <;> cases ok 1 <;> cases ok 2 <;> simp

/-- C91. A server that is given the services by a call that gets past the look at the addresses and returns 0 has them all, for
the address it was given; one that runs, or has some service of braft, is refused, and a refusal does not change which addresses
are served. -/
theorem C91_services {s s' : State} (k : Nat) (ok : Nat → Bool) (hs : step s (.rest k ok) = some s') :
    ∃ i a v v', s.calls[k]? = some (i, a) ∧ s.srv i = some v ∧ s'.srv i = some v' ∧
      ((s'.rets = s.rets ++ [(i, a, true)] ∧ v' = ⟨true, some a, true, true, false⟩ ∧ v = Server.new ∧
          (∀ b, b ∈ s'.addrs ↔ b = a ∨ b ∈ s.addrs)) ∨
       (s'.rets = s.rets ++ [(i, a, false)] ∧ s'.addrs = s.addrs ∧
          (v ≠ Server.new ∨ ∃ j, j < 4 ∧ ok j = false))) := by
  unfold step at hs; dsimp only at hs
  cases hk : s.calls[k]? with
  | none => rw [hk] at hs; cases hs
  | some x =>
    obtain ⟨i, a⟩ := x
    rw [hk] at hs; dsimp only at hs
    cases hv : s.srv i with
    | none => rw [hv] at hs; cases hs
    | some v =>
      rw [hv] at hs
      cases hs
      refine ⟨i, a, v, (services v a ok).1, rfl, hv, by show upd _ _ _ _ = _; unfold upd; rw [if_pos rfl], ?_⟩
      dsimp only
      cases hr : (services v a ok).2 with
      | true =>
        refine Or.inl ⟨rfl, services_ok hr, ?_, ?_⟩
        · exact services_new hr
        · intro b
          rw [if_pos rfl]
          split
          · rename_i hc
            have := List.contains_iff_mem.mp hc
            constructor
            · intro h; exact Or.inr h
            · rintro (h | h)
              · subst h; exact this
              · exact h
          · exact List.mem_cons
      | false =>
        refine Or.inr ⟨rfl, rfl, ?_⟩
        by_cases e : v = Server.new
        · refine Or.inr ?_
          subst e
          unfold services Server.new at hr
          dsimp only at hr
          cases h0 : ok 0 with
          | false => exact ⟨0, by omega, h0⟩
          | true =>
            cases h1 : ok 1 with
            | false => exact ⟨1, by omega, h1⟩
            | true =>
              cases h2 : ok 2 with
              | false => exact ⟨2, by omega, h2⟩
              | true =>
                cases h3 : ok 3 with
                | false => exact ⟨3, by omega, h3⟩
                | true => simp [h0, h1, h2, h3] at hr
        · exact Or.inl e

/-- C91. What a call of add_service does at the look: nothing but the result 0 if the address is served; else it goes on. -/
theorem C91_look {s s' : State} (i : Nat) (a : Addr) (hs : step s (.call i a) = some s') :
    s'.addrs = s.addrs ∧ s'.srv = s.srv ∧
    ((∃ b ∈ s.addrs, Serves b a) → s'.calls = s.calls ∧ s'.rets = s.rets ++ [(i, a, true)]) ∧
    (¬ (∃ b ∈ s.addrs, Serves b a) → s'.calls = s.calls ++ [(i, a)] ∧ s'.rets = s.rets) := by
  rw [← exists_iff]
  unfold step at hs; dsimp only at hs
  split at hs
  · cases hs
  · split at hs
    · rename_i h; cases hs; exact ⟨rfl, rfl, fun _ => ⟨rfl, rfl⟩, fun n => absurd h n⟩
    · rename_i h; cases hs; exact ⟨rfl, rfl, fun n => absurd n h, fun _ => ⟨rfl, rfl⟩⟩

/-- C91. Once a server that served an address alone is destroyed the address is no longer taken as served. -/
theorem C91_destroyed {s s' : State} (i : Nat) (v : Server) (a : Addr) (hv : s.srv i = some v) (hr : v.raft = some a)
    (hs : step s (.destroy i) = some s') : s'.srv i = none ∧ a ∉ s'.addrs ∧ ∀ b, b ≠ a → (b ∈ s'.addrs ↔ b ∈ s.addrs) := by
  unfold step at hs; dsimp only at hs
  rw [hv] at hs; dsimp only at hs
  split at hs
  · cases hs
  · cases hs
    dsimp only
    rw [hr]
    dsimp only
    refine ⟨by unfold upd; rw [if_pos rfl], by simp, ?_⟩
    intro b hb
    simp [hb]

/-- C91. A node is registered only under an address that is served; elsewhere the registry stays as it was. -/
theorem C91_node {G P : Type} [DecidableEq G] [DecidableEq P] {s : State} (h : Reach s) (addr : P → Addr) (m : Maps G P)
    (n : Node G P) :
    ((addNodeAt s.addrs addr m n).2 = true →
      ∃ i v b, s.srv i = some v ∧ Serves b (addr n.peer) ∧ v.file = true ∧ v.raft = some b ∧ v.stat = true ∧ v.cli = true) ∧
    ((∃ b ∈ s.addrs, Serves b (addr n.peer)) → addNodeAt s.addrs addr m n = addNode m n) ∧
    (¬ (∃ b ∈ s.addrs, Serves b (addr n.peer)) → addNodeAt s.addrs addr m n = (m, false)) := by
  rw [← exists_iff]
  unfold addNodeAt
  cases he : serverExists s.addrs (addr n.peer) with
  | true =>
    rw [if_pos rfl]
    exact ⟨fun _ => C91_served h _ he, fun _ => rfl, fun n => absurd rfl n⟩
  | false =>
    rw [if_neg (by simp)]
    exact ⟨fun h => by simp at h, fun h => by simp at h, fun _ => rfl⟩

/-! ## What fails -/

private def A : Addr := (1, 80)
private def good : Nat → Bool := fun _ => true
/-- The raft service fits, the third service does not. -/
private def half : Nat → Bool := fun k => k != 2

/-- Acts one after another. -/
def go (s : State) : List Act → Option State
  | [] => some s
  | a :: l => (step s a).bind (go · l)

theorem go_reach {s s' : State} (h : Reach s) (l : List Act) (hg : go s l = some s') : Reach s' := by
  induction l generalizing s with
  | nil => cases hg; exact h
  | cons a l ih =>
    unfold go at hg
    cases hs : step s a with
    | none => rw [hs] at hg; cases hg
    | some t => rw [hs] at hg; exact ih (.step a h hs) hg

/-- VIOLATED: "add_service returned 0, so the server has the services": a second server given an address that is served gets
result 0 and none of them. -/
theorem C91_second_server : ∃ s, Reach s ∧ (1, A, true) ∈ s.rets ∧ s.srv 1 = some Server.new := by
  have h : ∃ s, go .init [.make 0, .make 1, .call 0 A, .rest 0 good, .call 1 A] = some s ∧
      (1, A, true) ∈ s.rets ∧ s.srv 1 = some Server.new := ⟨_, rfl, by decide, by decide⟩
  obtain ⟨s, hg, h1, h2⟩ := h
  exact ⟨s, go_reach .init _ hg, h1, h2⟩

/-- VIOLATED: "an address a server serves stays served while the server is there": a server on which add_service failed half-way
keeps a raft service of the address, and takes the address out when it is destroyed, while another server serves it. Nodes are
refused there from then on. -/
theorem C91_lost_address : ∃ s, Reach s ∧ (∃ v, s.srv 1 = some v ∧ Full v A) ∧ (1, A, true) ∈ s.rets ∧
    serverExists s.addrs A = false := by
  have h : ∃ s, go .init [.make 0, .make 1, .call 0 A, .rest 0 half, .call 1 A, .rest 0 good, .destroy 0] = some s ∧
      (∃ v, s.srv 1 = some v ∧ Full v A) ∧ (1, A, true) ∈ s.rets ∧ serverExists s.addrs A = false :=
    ⟨_, rfl, ⟨⟨true, some A, true, true, false⟩, by decide, by unfold Full; decide⟩, by decide, by decide⟩
  obtain ⟨s, hg, h1, h2, h3⟩ := h
  exact ⟨s, go_reach .init _ hg, h1, h2, h3⟩

/-- The same by two calls at the same time: both look before either is in. -/
theorem C91_two_servers : ∃ s, Reach s ∧ (∃ v, s.srv 1 = some v ∧ Full v A) ∧ (0, A, true) ∈ s.rets ∧ (1, A, true) ∈ s.rets ∧
    serverExists s.addrs A = false := by
  have h : ∃ s, go .init [.make 0, .make 1, .call 0 A, .call 1 A, .rest 0 good, .rest 0 good, .destroy 0] = some s ∧
      (∃ v, s.srv 1 = some v ∧ Full v A) ∧ (0, A, true) ∈ s.rets ∧ (1, A, true) ∈ s.rets ∧ serverExists s.addrs A = false :=
    ⟨_, rfl, ⟨⟨true, some A, true, true, false⟩, by decide, by unfold Full; decide⟩, by decide, by decide, by decide⟩
  obtain ⟨s, hg, h1, h2, h3, h4⟩ := h
  exact ⟨s, go_reach .init _ hg, h1, h2, h3, h4⟩

/-- VIOLATED: "add_service can be tried again": after a failure past the first service every later try on that server fails. -/
theorem C91_no_retry (v : Server) (h : v ≠ Server.new) (a : Addr) (ok : Nat → Bool) : (services v a ok).2 = false := by
  cases hr : (services v a ok).2 with
  | false => rfl
  | true =>
    exact absurd (services_new hr) h

/-! ## The hypotheses are met -/

private def acts1 : List Act := [.make 0, .call 0 (0, 80), .rest 0 good, .run 0]
private def srv1 : Option State := go .init acts1

example : ∃ s, srv1 = some s ∧ Reach s ∧ serverExists s.addrs A = true ∧ serverExists s.addrs (1, 81) = false :=
  ⟨_, rfl, go_reach .init acts1 rfl, by decide, by decide⟩
example : ∃ s s', go .init [.make 0, .call 0 A] = some s ∧ step s (.rest 0 good) = some s' ∧
    s'.rets = s.rets ++ [(0, A, true)] ∧ s'.addrs = [A] := ⟨_, _, rfl, rfl, rfl, by decide⟩
example : ∃ s s', go .init [.make 0, .call 0 A] = some s ∧ step s (.rest 0 half) = some s' ∧
    s'.rets = s.rets ++ [(0, A, false)] ∧ s'.addrs = [] ∧ s'.srv 0 = some ⟨true, some A, false, false, false⟩ :=
  ⟨_, _, rfl, rfl, rfl, by decide, by decide⟩
example : ∃ s s', srv1 = some s ∧ step s (.call 0 A) = some s' ∧ s'.rets.length = 2 := ⟨_, _, rfl, rfl, by decide⟩
example : ∃ s s' v, srv1 = some s ∧ s.srv 0 = some v ∧ v.raft = some (0, 80) ∧ step s (.destroy 0) = some s' ∧ s'.addrs = [] :=
  ⟨_, _, ⟨true, some (0, 80), true, true, true⟩, rfl, by decide, rfl, rfl, by decide⟩
private def n1 : Node String Nat := ⟨100, "g", 1⟩
private def none0 : Maps String Nat := {}
example : ∃ s, srv1 = some s ∧ (addNodeAt s.addrs (fun _ : Nat => A) none0 n1).2 = true ∧
    (addNodeAt s.addrs (fun _ : Nat => (1, 81)) none0 n1).2 = false := ⟨_, rfl, by decide, by decide⟩
example : (⟨true, none, false, false, false⟩ : Server) ≠ Server.new := by decide

end Braft.Props.ServiceAddr
