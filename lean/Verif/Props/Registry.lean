import Verif.Registry
/-!
# C47 Route table, C48 Node registry
-/
set_option linter.unusedVariables false
set_option linter.unusedSimpArgs false
namespace Braft.Props
open Braft

section RouteTable
open Braft.RouteTable
variable {G : Type} [DecidableEq G]

/-- `op` keeps the leader `l` of group `g`: it does not remove the group, does not install a
(non-empty) configuration without `l`, and does not set another leader. -/
def KeepsLeader (g : G) (l : PeerId) : Op G → Prop
  | .updateConf g' c => g' = g → c.empty = false → c.contains l = true
  | .updateLeader g' l' => g' = g → PeerId.eqv l' l = true
  | .removeGroup g' => g' ≠ g

/-- C47. If `select_leader(g)` succeeds with `l`, then `update_leader(g, l)` was called for the
group, and every later operation kept that leader. -/
theorem C47_select_leader (ops : List (Op G)) (g : G) (l : PeerId)
    (h : selectLeader (RouteTable.run ops) g = (0, some l)) :
    ∃ pre post, ops = pre ++ .updateLeader g l :: post ∧ l.isEmpty = false ∧
      ∀ op ∈ post, KeepsLeader g l op := by
  have key : ∀ (ops : List (Op G)) (gc : GroupConf), RouteTable.run ops g = some gc → gc.leader.isEmpty = false →
      ∃ pre post, ops = pre ++ .updateLeader g gc.leader :: post ∧
        ∀ op ∈ post, KeepsLeader g gc.leader op := by
    intro ops
    induction hn : ops.length generalizing ops with
    | zero =>
      intro gc hgc
      have : ops = [] := List.length_eq_zero_iff.mp hn
      subst this
      simp [RouteTable.run] at hgc
    | succ n ih =>
      intro gc hgc hne
      obtain ⟨init, last, rfl⟩ : ∃ init last, ops = init ++ [last] := by
        have hne' : ops ≠ [] := by intro h0; subst h0; simp at hn
        exact ⟨ops.dropLast, ops.getLast hne', (List.dropLast_concat_getLast hne').symm⟩
      have hlen : init.length = n := by simpa using hn
      rw [run_snoc] at hgc
      -- if the leader of g is the one before the step and the step keeps it, use the induction hypothesis
      have extend : ∀ gc0, RouteTable.run init g = some gc0 → gc0.leader = gc.leader →
          KeepsLeader g gc.leader last →
          ∃ pre post, init ++ [last] = pre ++ .updateLeader g gc.leader :: post ∧
            ∀ op ∈ post, KeepsLeader g gc.leader op := by
        intro gc0 h0 hl hk
        obtain ⟨pre, post, he, hp⟩ := ih init hlen gc0 h0 (by rw [hl]; exact hne)
        rw [hl] at he hp
        refine ⟨pre, post ++ [last], by rw [he]; simp, ?_⟩
        intro op hop
        rcases List.mem_append.mp hop with hop | hop
        · exact hp op hop
        · simp at hop; subst hop; exact hk
      cases last with
      | updateConf g' c =>
        simp only [step, updateConfiguration] at hgc
        by_cases hc : c.empty = true
        · rw [if_pos hc] at hgc
          exact extend gc hgc rfl (by intro _ h2; rw [hc] at h2; cases h2)
        · rw [if_neg hc] at hgc
          simp only [modifyConf] at hgc
          by_cases hg : g = g'
          · subst hg
            simp only [if_true, Option.some.injEq] at hgc
            split at hgc
            · rw [← hgc] at hne; simp [PeerId.isEmpty] at hne
            · rename_i hcond
              cases hr : RouteTable.run init g with
              | none =>
                rw [hr] at hgc
                rw [← hgc] at hne; simp [PeerId.isEmpty] at hne
              | some gc0 =>
                rw [hr] at hgc hcond
                simp only [Option.getD_some] at hgc hcond
                have hlead : gc0.leader = gc.leader := by rw [← hgc]
                refine extend gc0 hr hlead ?_
                intro _ _
                rw [hlead] at hcond
                simp [hne] at hcond
                exact hcond
          · rw [if_neg hg] at hgc
            exact extend gc hgc rfl (by intro h2; exact absurd h2.symm hg)
      | updateLeader g' l' =>
        simp only [step, RouteTable.updateLeader] at hgc
        cases hr : RouteTable.run init g' with
        | none =>
          rw [hr] at hgc
          have hg : g ≠ g' := by
            intro h2; subst h2; simp only [hr] at hgc; cases hgc
          exact extend gc hgc rfl (by intro h2; exact absurd h2.symm hg)
        | some gc0 =>
          rw [hr] at hgc
          simp only at hgc
          split at hgc
          · rename_i heq
            by_cases hg : g = g'
            · subst hg
              rw [hr] at hgc
              cases hgc
              exact extend gc hr rfl (by intro _; exact PeerId.eqv_symm heq)
            · exact extend gc hgc rfl (by intro h2; exact absurd h2.symm hg)
          · by_cases hg : g = g'
            · subst hg
              simp only [if_true, Option.some.injEq] at hgc
              refine ⟨init, [], ?_, by simp⟩
              rw [← hgc]
            · simp only [if_neg hg] at hgc
              exact extend gc hgc rfl (by intro h2; exact absurd h2.symm hg)
      | removeGroup g' =>
        simp only [step, RouteTable.removeGroup] at hgc
        cases hr : RouteTable.run init g' with
        | none =>
          rw [hr] at hgc
          have hg : g ≠ g' := by
            intro h2; subst h2; simp only [hr] at hgc; cases hgc
          exact extend gc hgc rfl (fun h2 => hg h2.symm)
        | some gc0 =>
          rw [hr] at hgc
          simp only at hgc
          by_cases hg : g = g'
          · rw [if_pos hg] at hgc; cases hgc
          · rw [if_neg hg] at hgc
            exact extend gc hgc rfl (fun h2 => hg h2.symm)
  unfold selectLeader at h
  cases hr : RouteTable.run ops g with
  | none => rw [hr] at h; simp at h
  | some gc =>
    rw [hr] at h
    simp only at h
    split at h
    · simp at h
    · rename_i hne
      simp at h
      subst h
      have hne' : gc.leader.isEmpty = false := by simpa using hne
      obtain ⟨pre, post, he, hp⟩ := key ops gc hr hne'
      exact ⟨pre, post, he, hne', hp⟩

/-- C47. After `remove_group(g)` the group is unknown: selecting a leader, removing it again and
registering a leader all have no effect until a configuration is registered. -/
theorem C47_remove_group (ops : List (Op G)) (g : G) (l : PeerId) :
    let m := RouteTable.run (ops ++ [.removeGroup g])
    selectLeader m g = (-1, none) ∧ (RouteTable.removeGroup m g).2 = -1 ∧
    selectLeader (RouteTable.updateLeader m g l) g = (-1, none) := by
  intro m
  have hm : m g = none := by
    show RouteTable.run (ops ++ [.removeGroup g]) g = none
    rw [run_snoc]
    simp only [step, RouteTable.removeGroup]
    split
    · assumption
    · simp
  simp [selectLeader, RouteTable.removeGroup, RouteTable.updateLeader, hm]

/-- C47. Operations on one group do not affect another. -/
theorem C47_groups_independent (ops : List (Op G)) (op : Op G) (g : G)
    (h : match op with | .updateConf g' _ => g' ≠ g | .updateLeader g' _ => g' ≠ g | .removeGroup g' => g' ≠ g) :
    RouteTable.run (ops ++ [op]) g = RouteTable.run ops g := by
  rw [run_snoc]
  cases op with
  | updateConf g' c =>
    simp only at h
    simp only [step, updateConfiguration, modifyConf]
    split
    · rfl
    · simp [Ne.symm h]
  | updateLeader g' l =>
    simp only at h
    simp only [step, RouteTable.updateLeader]
    cases RouteTable.run ops g' with
    | none => rfl
    | some gc =>
      simp only
      by_cases he : gc.leader.eqv l = true
      · rw [if_pos he]
      · rw [if_neg he]; simp [Ne.symm h]
  | removeGroup g' =>
    simp only at h
    simp only [step, RouteTable.removeGroup]
    split
    · rfl
    · simp [Ne.symm h]

private def rA : PeerId := ⟨1, 80, 0, .replica⟩
private def rB : PeerId := ⟨2, 80, 0, .replica⟩

/-- A leader is registered, survives a configuration that contains it, and is dropped by one that
does not. -/
example :
    selectLeader (RouteTable.run [.updateConf "g" (.ofVector [rA, rB]), .updateLeader "g" rA,
      .updateConf "g" (.ofVector [rA])]) "g" = (0, some rA) ∧
    selectLeader (RouteTable.run [.updateConf "g" (.ofVector [rA, rB]), .updateLeader "g" rA,
      .updateConf "g" (.ofVector [rB])]) "g" = (1, none) := by decide

/-- What is *not* guaranteed: a leader outside the registered configuration is accepted. -/
theorem C47_leader_outside_conf : ∃ (ops : List (Op String)) (l : PeerId) (gc : GroupConf),
    selectLeader (RouteTable.run ops) "g" = (0, some l) ∧ RouteTable.run ops "g" = some gc ∧
    gc.conf.contains l = false :=
  ⟨[.updateConf "g" (.ofVector [rA]), .updateLeader "g" rB], rB, _, by decide, rfl, by decide⟩

end RouteTable

section NodeManager
open Braft.NodeManager
variable {G P : Type} [DecidableEq G] [DecidableEq P]

/-- Histories of the registry. Node objects are identified by their address: two calls with the
same address are about the same node. -/
inductive NM : Maps G P → List (Node G P) → Prop
  | init : NM {} []
  | add {m reg} (n) : NM m reg → PtrOk m n → (addNode m n).2 = true → NM (addNode m n).1 (reg ++ [n])
  | addRefused {m reg} (n) : NM m reg → PtrOk m n → (addNode m n).2 = false → NM (addNode m n).1 reg
  | remove {m reg} (n) : NM m reg → (removeNode m n).2 = true →
      NM (removeNode m n).1 (reg.filter (fun x => decide (x.ptr ≠ n.ptr)))
  | removeRefused {m reg} (n) : NM m reg → (removeNode m n).2 = false → NM (removeNode m n).1 reg

/-- `reg` in `NM m reg` is the specification: the nodes for which `add` answered true and `remove`
has not answered true since. The registry's maps hold exactly those. -/
theorem nm_spec {m : Maps G P} {reg} (h : NM m reg) : NodeManager.Inv m ∧ m.nodeMap.map Prod.snd = reg := by
  induction h with
  | init => exact ⟨⟨by simp, by simp, by simp, by simp⟩, rfl⟩
  | add n _ hp ht ih =>
    refine ⟨inv_add ih.1 hp, ?_⟩
    unfold addNode at ht ⊢
    split at ht
    · cases ht
    · rename_i hf; simp only [hf]; simp [ih.2]
  | addRefused n _ hp ht ih =>
    refine ⟨inv_add ih.1 hp, ?_⟩
    unfold addNode at ht ⊢
    split at ht
    · rename_i hf; simp only [hf]; exact ih.2
    · cases ht
  | @remove m reg n _ ht ih =>
    refine ⟨inv_remove ih.1, ?_⟩
    unfold removeNode at ht ⊢
    split at ht
    · cases ht
    · rename_i x hf
      split at ht
      · cases ht
      · rename_i hx
        have hx : x.ptr = n.ptr := Classical.not_not.mp hx
        simp only [hf]
        rw [if_neg (by simp [hx])]
        simp only
        rw [← ih.2, List.filter_map]
        congr 1
        apply List.filter_congr
        intro e he
        simp only [Function.comp_apply]
        rw [decide_eq_decide]
        have hmem := find_some hf
        constructor
        · intro h1 h2
          have := ih.1.ptrs e he _ hmem (by rw [h2, hx])
          exact h1 (by rw [this])
        · intro h1 h2
          have h3 := find_of_mem ih.1.nodup (k := e.1) (n := e.2) he
          rw [h2, hf] at h3
          cases h3
          exact h1 hx
  | removeRefused n _ ht ih =>
    refine ⟨inv_remove ih.1, ?_⟩
    unfold removeNode at ht ⊢
    split at ht
    · rename_i hf; simp only [hf]; exact ih.2
    · rename_i x hf
      split at ht
      · rename_i hx; simp only [hf]; rw [if_pos hx]; exact ih.2
      · rename_i hx
        exfalso
        have hx : x.ptr = n.ptr := Classical.not_not.mp hx
        simp only at ht
        rw [ih.1.groups, eraseGroup_map n _ ih.1.keys ih.1.nodup ih.1.ptrs x (find_some hf) hx] at ht
        cases ht

/-- C48. At most one node per (group, peer), and `get` finds exactly the registered nodes. -/
theorem C48_get {m : Maps G P} {reg} (h : NM m reg) (g : G) (p : P) (n : Node G P) :
    NodeManager.get m g p = some n ↔ n ∈ reg ∧ n.group = g ∧ n.peer = p := by
  obtain ⟨hi, hr⟩ := nm_spec h
  unfold NodeManager.get
  constructor
  · intro hf
    have hm := find_some hf
    have hk := hi.keys _ hm
    simp at hk
    exact ⟨by rw [← hr]; exact List.mem_map.mpr ⟨_, hm, rfl⟩, hk.1.symm, hk.2.symm⟩
  · rintro ⟨h1, rfl, rfl⟩
    rw [← hr] at h1
    obtain ⟨e, he, rfl⟩ := List.mem_map.mp h1
    apply find_of_mem hi.nodup
    rw [← hi.keys e he]
    exact he

theorem C48_unique {m : Maps G P} {reg} (h : NM m reg) (a b : Node G P) (ha : a ∈ reg) (hb : b ∈ reg)
    (hg : a.group = b.group) (hp : a.peer = b.peer) : a = b := by
  have h1 := (C48_get h a.group a.peer a).mpr ⟨ha, rfl, rfl⟩
  have h2 := (C48_get h a.group a.peer b).mpr ⟨hb, hg.symm, hp.symm⟩
  rw [h1] at h2
  cases h2; rfl

/-- C48. The per-group index lists exactly the registered nodes of the group, in registration
order and without repetition; `get_all_nodes` lists all of them. -/
theorem C48_by_group {m : Maps G P} {reg} (h : NM m reg) (g : G) :
    byGroup m g = reg.filter (fun n => decide (n.group = g)) ∧ NodeManager.all m = reg := by
  obtain ⟨hi, hr⟩ := nm_spec h
  unfold byGroup NodeManager.all
  rw [hi.groups, ← hr]
  refine ⟨?_, by simp⟩
  rw [List.filter_map, List.filter_map]
  simp [Function.comp_def]

/-- C48. `add` is refused exactly when a node with the same group and peer is registered. -/
theorem C48_add_refused {m : Maps G P} {reg} (h : NM m reg) (n : Node G P) :
    (addNode m n).2 = false ↔ ∃ x ∈ reg, x.group = n.group ∧ x.peer = n.peer := by
  have hget := C48_get h n.group n.peer
  unfold NodeManager.get at hget
  unfold addNode
  split
  · rename_i x hf
    simp only [true_iff]
    exact ⟨x, (hget x).mp hf⟩
  · rename_i hf
    simp only [Bool.true_eq_false, false_iff]
    rintro ⟨x, hx⟩
    have := (hget x).mpr hx
    rw [hf] at this; cases this

/-- C48. Removing a node leaves every other node registered, in particular a different node
registered under the same id. -/
theorem C48_remove_other {m : Maps G P} {reg} (h : NM m reg) (n x : Node G P) (hx : x ∈ reg)
    (hne : x.ptr ≠ n.ptr) : NodeManager.get (removeNode m n).1 x.group x.peer = some x := by
  cases hr : (removeNode m n).2 with
  | true => exact (C48_get (.remove n h hr) _ _ x).mpr ⟨List.mem_filter.mpr ⟨hx, by simp [hne]⟩, rfl, rfl⟩
  | false => exact (C48_get (.removeRefused n h hr) _ _ x).mpr ⟨hx, rfl, rfl⟩

private def nA : Node String Nat := ⟨100, "g", 1⟩
private def nA' : Node String Nat := ⟨101, "g", 1⟩
private def nB : Node String Nat := ⟨102, "g", 2⟩

/-- Two nodes of one group; a second node with the same id is refused, and removing that refused
one does not disturb the first. -/
example : ∃ m : Maps String Nat, NM m [nA, nB] ∧ (addNode m nA').2 = false ∧
    (removeNode m nA').2 = false ∧ byGroup m "g" = [nA, nB] := by
  refine ⟨_, .add nB (.add nA .init (by simp [PtrOk]) (by decide)) (by simp [PtrOk, addNode, find, nA, nB]) (by decide), ?_⟩
  decide

end NodeManager
end Braft.Props
