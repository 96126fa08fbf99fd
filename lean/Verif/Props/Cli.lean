import Verif.Cli
import Verif.Props.Registry
import Verif.Props.Peer
/-
C61: the command line service acts on the node it was asked for and reports the change it made.

`NM m reg` (Props/Registry.lean): `reg` are the nodes that were added to the process and not removed.
-/
set_option linter.unusedVariables false
set_option linter.unusedSectionVars false

namespace Braft.Props
open Braft.Cli Braft.NodeManager
variable {G P : Type} [DecidableEq G] [DecidableEq P]

/-- C61. The node that a command acts on is a registered node of the group that allows the service; it is the peer that was
named, or, if none was named, the only node of the group. -/
theorem cli_acts_on_named_node {m : Maps G P} {reg : List (Node G P)} (h : NM m reg) (disabled : Node G P → Bool) (g : G)
    (peer : Option P) (n : Node G P) (e : getNode m disabled g peer = .ok n) :
    n ∈ reg ∧ n.group = g ∧ disabled n = false ∧ (∀ p, peer = some p → n.peer = p) ∧
      (peer = none → ∀ x ∈ reg, x.group = g → x = n) := by
  unfold getNode at e
  cases peer with
  | some p =>
    simp only at e
    cases hg : NodeManager.get m g p with
    | none => rw [hg] at e; simp at e
    | some x =>
      rw [hg] at e
      simp only at e
      obtain ⟨h1, h2, h3⟩ := (C48_get h g p x).mp hg
      split at e
      · simp at e
      · rename_i hd
        simp only [Except.ok.injEq] at e
        subst e
        refine ⟨h1, h2, by simpa using hd, ?_, by simp⟩
        intro q hq
        rw [h3]; exact Option.some.inj hq
  | none =>
    simp only at e
    have hb := (C48_by_group h g).1
    cases hl : byGroup m g with
    | nil => rw [hl] at e; simp at e
    | cons x r =>
      rw [hl] at e
      cases r with
      | cons y r => simp at e
      | nil =>
        simp only at e
        split at e
        · simp at e
        · rename_i hd
          simp only [Except.ok.injEq] at e
          subst e
          rw [hl] at hb
          have hx : x ∈ reg.filter (fun n => decide (n.group = g)) := by rw [← hb]; simp
          obtain ⟨h1, h2⟩ := List.mem_filter.mp hx
          refine ⟨h1, by simpa using h2, by simpa using hd, by simp, ?_⟩
          intro _ y hy hyg
          have : y ∈ reg.filter (fun n => decide (n.group = g)) := List.mem_filter.mpr ⟨hy, by simpa using hyg⟩
          rw [← hb] at this
          simpa using this

/-- C61. And such a node is always found. -/
theorem cli_finds_node {m : Maps G P} {reg : List (Node G P)} (h : NM m reg) (disabled : Node G P → Bool) (n : Node G P)
    (hn : n ∈ reg) (hd : disabled n = false) : getNode m disabled n.group (some n.peer) = .ok n := by
  unfold getNode
  simp only
  rw [(C48_get h n.group n.peer n).mpr ⟨hn, rfl, rfl⟩]
  simp [hd]

/-- C61. get_leader names a leader that a registered node of the group knows. -/
theorem cli_get_leader {m : Maps G P} {reg : List (Node G P)} (h : NM m reg) (leader : Node G P → Option P) (g : G)
    (peer : Option P) (l : P) (e : getLeader m leader g peer = some l) :
    ∃ n ∈ reg, n.group = g ∧ leader n = some l ∧ ∀ p, peer = some p → n.peer = p := by
  unfold getLeader at e
  obtain ⟨n, hn, hl⟩ := List.exists_of_findSome?_eq_some e
  cases peer with
  | some p =>
    simp only [Option.mem_toList, Option.mem_def] at hn
    obtain ⟨h1, h2, h3⟩ := (C48_get h g p n).mp hn
    exact ⟨n, h1, h2, hl, fun q hq => by rw [h3]; exact Option.some.inj hq⟩
  | none =>
    simp only at hn
    rw [(C48_by_group h g).1] at hn
    obtain ⟨h1, h2⟩ := List.mem_filter.mp hn
    exact ⟨n, h1, by simpa using h2, hl, by simp⟩

/-- A list of peers names the members of a configuration. -/
def Names (l : List PeerId) (c : Configuration) : Prop :=
  ∀ q, (∃ x ∈ l, x.ip = q.ip ∧ x.port = q.port ∧ x.idx = q.idx) ↔ InConf c q

/-- C61. When a membership command succeeds, old_peers are the members of the group before and new_peers those that were asked
for. `before`: the configuration of the node when it started the change. Proved if that is still the one that was listed. -/
theorem cli_reports_change_partial {before : Configuration} (hb : Built before) (c : Call) :
    Names (c.answer before.peers).1 before ∧ Names (c.answer before.peers).2 (c.target before) := by
  refine ⟨?_, ?_⟩
  · intro q; cases c <;> exact Iff.rfl
  · intro q
    cases c with
    | add p =>
      have h1 := (C39_add hb p q).1
      simp only [Call.answer, Call.target, addReturned]
      rw [h1]
      split
      · rename_i ha
        obtain ⟨x, hx, he⟩ := List.any_eq_true.mp ha
        have hin : InConf before p := ⟨x, hx, PeerId.eqv_iff.mp he⟩
        constructor
        · exact fun h => Or.inl h
        · rintro (h | ⟨e1, e2, e3⟩)
          · exact h
          · obtain ⟨y, hy, f1, f2, f3⟩ := hin
            exact ⟨y, hy, by omega, by omega, by omega⟩
      · constructor
        · rintro ⟨x, hx, e⟩
          rcases List.mem_append.mp hx with h | h
          · exact Or.inl ⟨x, h, e⟩
          · rw [List.mem_singleton.mp h] at e; exact Or.inr e
        · rintro (⟨x, hx, e⟩ | e)
          · exact ⟨x, List.mem_append_left _ hx, e⟩
          · exact ⟨p, List.mem_append_right _ (by simp), e⟩
    | remove p =>
      have h1 := (C39_remove hb p q).1
      simp only [Call.answer, Call.target, removeReturned]
      rw [h1]
      constructor
      · rintro ⟨x, hx, e⟩
        obtain ⟨a, b⟩ := List.mem_filter.mp hx
        refine ⟨⟨x, a, e⟩, ?_⟩
        intro hp
        simp only [Bool.not_eq_true', ← Bool.not_eq_true, PeerId.eqv_iff] at b
        exact b ⟨by omega, by omega, by omega⟩
      · rintro ⟨⟨x, hx, e⟩, hp⟩
        refine ⟨x, List.mem_filter.mpr ⟨hx, ?_⟩, e⟩
        simp only [Bool.not_eq_true', ← Bool.not_eq_true, PeerId.eqv_iff]
        intro he
        exact hp ⟨by omega, by omega, by omega⟩
    | change d => exact Iff.rfl

/-- C61. The leader that the client tools find was named by a peer of the group, the last of those that answered. -/
theorem cli_search_last_answer (replies : List Reply) (l : PeerId) (h : findLeader replies = some l) :
    ∃ a b, replies = a ++ Reply.leader l :: b ∧ (∀ x ∈ b, x = Reply.failed) ∧ l.isEmpty = false := by
  have key : ∀ (r : List Reply) (l0 : PeerId), search r l0 = l0 ∧ (∀ x ∈ r, x = Reply.failed) ∨
      ∃ a b p, r = a ++ Reply.leader p :: b ∧ (∀ x ∈ b, x = Reply.failed) ∧ search r l0 = p := by
    intro r
    induction r with
    | nil => intro l0; exact Or.inl ⟨rfl, by simp⟩
    | cons x r ih =>
      intro l0
      cases x with
      | failed =>
        rcases ih l0 with ⟨h1, h2⟩ | ⟨a, b, p, h1, h2, h3⟩
        · left
          refine ⟨h1, ?_⟩
          intro x hx
          rcases List.mem_cons.mp hx with rfl | hx
          · rfl
          · exact h2 x hx
        · exact Or.inr ⟨.failed :: a, b, p, by rw [h1]; rfl, h2, h3⟩
      | leader p =>
        rcases ih p with ⟨h1, h2⟩ | ⟨a, b, q, h1, h2, h3⟩
        · exact Or.inr ⟨[], r, p, rfl, h2, h1⟩
        · exact Or.inr ⟨.leader p :: a, b, q, by rw [h1]; rfl, h2, h3⟩
  unfold findLeader at h
  simp only at h
  split at h
  · simp at h
  · rename_i hne
    simp only [Option.some.injEq] at h
    rcases key replies {} with ⟨h1, h2⟩ | ⟨a, b, p, h1, h2, h3⟩
    · rw [h1] at hne; exact absurd rfl hne
    · rw [h3] at h hne
      subst h
      exact ⟨a, b, h1, h2, by simpa using hne⟩

namespace CliEx
def p (i : Nat) : PeerId := ⟨i, 80, 0, .replica⟩
def c1 : Configuration := Configuration.ofVector [p 1, p 2]
def n1 : Node String Nat := ⟨100, "g", 1⟩

/-- Non-vacuity: a node that is found, and one that does not allow the service. -/
example : ∃ m : Maps String Nat, NM m [n1] ∧ getNode m (fun _ => false) "g" none = .ok n1 ∧
    getNode m (fun _ => true) "g" (some 1) = .error .eacces :=
  ⟨_, .add n1 .init (by simp [PtrOk]) (by decide), rfl, rfl⟩
example : Built c1 ∧ (Call.answer c1.peers (.add (p 3))).2 = [p 1, p 2, p 3] := ⟨.ofVector _, by decide⟩
example : findLeader [.leader (p 1), .failed, .leader (p 2), .failed] = some (p 2) := by decide
end CliEx

/-- C61, the rest is false: between list_peers and add_peer another change may add a peer. The answer then misses it: peers 1
and 2 are listed, 4 was added meanwhile, 3 is added; the group is 1, 2, 3, 4 and the answer says 1, 2, 3. -/
theorem cli_reports_stale_peers : ∃ (listed before : Configuration) (c : Call), Built listed ∧ Built before ∧
    before = (listed.addPeer (CliEx.p 4)).1 ∧ ¬ Names (c.answer listed.peers).2 (c.target before) := by
  refine ⟨CliEx.c1, (CliEx.c1.addPeer (CliEx.p 4)).1, .add (CliEx.p 3), .ofVector _, .add _ (.ofVector _), rfl, ?_⟩
  intro h
  have h4 : InConf (Call.target (CliEx.c1.addPeer (CliEx.p 4)).1 (.add (CliEx.p 3))) (CliEx.p 4) :=
    ⟨CliEx.p 4, by decide, rfl, rfl, rfl⟩
  obtain ⟨x, hx, hi, _, _⟩ := (h (CliEx.p 4)).mpr h4
  have : x.ip ≠ 4 := by
    have hall : ∀ x ∈ (Call.answer CliEx.c1.peers (.add (CliEx.p 3))).2, x.ip ≠ 4 := by decide
    exact hall x hx
  exact this hi

/-- C61. The search does not find the newest leader: a peer that is asked later and still knows an old leader wins. -/
theorem cli_search_stale_leader : findLeader [.leader (CliEx.p 2), .leader (CliEx.p 1)] = some (CliEx.p 1) := by decide

end Braft.Props
