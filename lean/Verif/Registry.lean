import Verif.Peer
/-!
# RouteTable and NodeManager

Models of src/braft/route_table.cpp:28-226 and src/braft/node_manager.cpp:25-169.
`butil::DoublyBufferedData::Modify` applies the same function to both copies under its lock; one
modification is one atomic step here. `butil::FlatMap` / `std::map` are association lists with one
entry per key. Group ids are any type with decidable equality.
-/
set_option linter.unusedVariables false
namespace Braft.RouteTable
variable {G : Type} [DecidableEq G]

/-- route_table.cpp:89-92 `GroupConf`. -/
structure GroupConf where
  leader : PeerId := {}
  conf : Configuration := {}
deriving DecidableEq, Repr, Inhabited

/-- route_table.cpp:94 `GroupMap`, one entry per key. -/
abbrev Table (G : Type) := G → Option GroupConf

/-- route_table.cpp:97-106 `modify_conf`. -/
def modifyConf (m : Table G) (g : G) (c : Configuration) : Table G :=
  let gc := (m g).getD {}
  let gc := { gc with conf := c }
  let gc := if !gc.leader.isEmpty && !gc.conf.contains gc.leader then { gc with leader := {} } else gc
  fun x => if x = g then some gc else m x

/-- route_table.cpp:151-157 `update_configuration`: an empty configuration is refused. -/
def updateConfiguration (m : Table G) (g : G) (c : Configuration) : Table G × Int :=
  if c.empty then (m, -1) else (modifyConf m g c, 0)

/-- route_table.cpp:108-119 `modify_leader`. -/
def updateLeader (m : Table G) (g : G) (l : PeerId) : Table G :=
  match m g with
  | none => m
  | some gc => if PeerId.eqv gc.leader l then m else fun x => if x = g then some { gc with leader := l } else m x

/-- route_table.cpp:121-127 `delete_group`, 76-82 `remove_group`. -/
def removeGroup (m : Table G) (g : G) : Table G × Int :=
  match m g with
  | none => (m, -1)
  | some _ => (fun x => if x = g then none else m x, 0)

/-- route_table.cpp:46-60 `select_leader`: (return code, leader when 0). -/
def selectLeader (m : Table G) (g : G) : Int × Option PeerId :=
  match m g with
  | none => (-1, none)
  | some gc => if gc.leader.isEmpty then (1, none) else (0, some gc.leader)

inductive Op (G : Type)
  | updateConf (g : G) (c : Configuration) | updateLeader (g : G) (l : PeerId) | removeGroup (g : G)

def step (m : Table G) : Op G → Table G
  | .updateConf g c => (updateConfiguration m g c).1
  | .updateLeader g l => RouteTable.updateLeader m g l
  | .removeGroup g => (RouteTable.removeGroup m g).1

def run (ops : List (Op G)) : Table G := ops.foldl step (fun _ => none)

theorem run_snoc (ops : List (Op G)) (op) : run (ops ++ [op]) = step (run ops) op := by simp [run]

end Braft.RouteTable

namespace Braft.NodeManager
variable {G P : Type} [DecidableEq G] [DecidableEq P]

/-- A `NodeImpl*`: an address `ptr` plus its immutable id. `P` is PeerId up to `operator==`. -/
structure Node (G P : Type) where
  ptr : Nat
  group : G
  peer : P
deriving DecidableEq, Repr

/-- node_manager.h `Maps`: `node_map` (std::map by NodeId) and `group_map` (multimap by group). -/
structure Maps (G P : Type) where
  nodeMap : List ((G × P) × Node G P) := []
  groupMap : List (G × Node G P) := []
deriving Repr

/-- `std::map::find`. -/
def find (m : List ((G × P) × Node G P)) (k : G × P) : Option (Node G P) :=
  (m.find? (fun e => decide (e.1 = k))).map Prod.snd

/-- node_manager.cpp:82-93 `_add_node`. -/
def addNode (m : Maps G P) (n : Node G P) : Maps G P × Bool :=
  match find m.nodeMap (n.group, n.peer) with
  | some _ => (m, false)
  | none => ({ nodeMap := m.nodeMap ++ [((n.group, n.peer), n)], groupMap := m.groupMap ++ [(n.group, n)] }, true)

/-- Erase the first multimap entry of the node's group that points to the node
(node_manager.cpp:103-111). -/
def eraseGroup (n : Node G P) : List (G × Node G P) → List (G × Node G P) × Bool
  | [] => ([], false)
  | e :: es => if e.1 = n.group ∧ e.2.ptr = n.ptr then (es, true)
               else let r := eraseGroup n es; (e :: r.1, r.2)

/-- node_manager.cpp:95-114 `_remove_node`. Pointer comparison is by `ptr`. -/
def removeNode (m : Maps G P) (n : Node G P) : Maps G P × Bool :=
  match find m.nodeMap (n.group, n.peer) with
  | none => (m, false)
  | some x => if x.ptr ≠ n.ptr then (m, false)
    else
      let r := eraseGroup n m.groupMap
      ({ nodeMap := m.nodeMap.filter (fun e => decide (e.1 ≠ (n.group, n.peer))), groupMap := r.1 }, r.2)

/-- node_manager.cpp:129-139 `get`. -/
def get (m : Maps G P) (g : G) (p : P) : Option (Node G P) := find m.nodeMap (g, p)

/-- node_manager.cpp:141-153 `get_nodes_by_group_id`. -/
def byGroup (m : Maps G P) (g : G) : List (Node G P) :=
  (m.groupMap.filter (fun e => decide (e.1 = g))).map Prod.snd

/-- node_manager.cpp:155-166 `get_all_nodes`. -/
def all (m : Maps G P) : List (Node G P) := m.groupMap.map Prod.snd

/-- node_manager.cpp:29-38 `server_exists`; 0 is IP_ANY. -/
def serverExists (addrs : List (Nat × Int)) (a : Nat × Int) : Bool :=
  (a.1 != 0 && addrs.contains (0, a.2)) || addrs.contains a

/-- Representation invariant. -/
structure Inv (m : Maps G P) : Prop where
  keys : ∀ e ∈ m.nodeMap, e.1 = (e.2.group, e.2.peer)
  nodup : (m.nodeMap.map Prod.fst).Nodup
  groups : m.groupMap = m.nodeMap.map (fun e => (e.2.group, e.2))
  ptrs : ∀ a ∈ m.nodeMap, ∀ b ∈ m.nodeMap, a.2.ptr = b.2.ptr → a = b

theorem find_some {l : List ((G × P) × Node G P)} {k n} (h : find l k = some n) : (k, n) ∈ l := by
  unfold find at h
  rw [Option.map_eq_some_iff] at h
  obtain ⟨⟨k', n'⟩, h1, h2⟩ := h
  have h3 := List.find?_some h1
  have h4 := List.mem_of_find?_eq_some h1
  simp at h3 h2; subst h3; subst h2; exact h4

theorem find_none {l : List ((G × P) × Node G P)} {k} (h : find l k = none) : ∀ e ∈ l, e.1 ≠ k := by
  unfold find at h
  rw [Option.map_eq_none_iff, List.find?_eq_none] at h
  intro e he; simpa using h e he

theorem find_of_mem {l : List ((G × P) × Node G P)} {k n} (hn : (l.map Prod.fst).Nodup)
    (h : (k, n) ∈ l) : find l k = some n := by
  induction l with
  | nil => cases h
  | cons e es ih =>
    simp only [List.map_cons, List.nodup_cons] at hn
    unfold find
    rw [List.find?_cons]
    by_cases he : e.1 = k
    · simp only [he, decide_true]
      rcases List.mem_cons.mp h with h | h
      · rw [← h]; rfl
      · exact absurd (List.mem_map.mpr ⟨_, h, rfl⟩) (by rw [he] at hn; exact hn.1)
    · simp only [he, decide_false]
      rcases List.mem_cons.mp h with h | h
      · exact absurd (by rw [← h]) he
      · exact ih hn.2 h

theorem eraseGroup_map (n : Node G P) (l : List ((G × P) × Node G P))
    (hk : ∀ e ∈ l, e.1 = (e.2.group, e.2.peer)) (hn : (l.map Prod.fst).Nodup)
    (hp : ∀ a ∈ l, ∀ b ∈ l, a.2.ptr = b.2.ptr → a = b) (x : Node G P) (hx : ((n.group, n.peer), x) ∈ l)
    (hxp : x.ptr = n.ptr) :
    eraseGroup n (l.map (fun e => (e.2.group, e.2))) =
      ((l.filter (fun e => decide (e.1 ≠ (n.group, n.peer)))).map (fun e => (e.2.group, e.2)), true) := by
  induction l with
  | nil => cases hx
  | cons e es ih =>
    have hke := hk e List.mem_cons_self
    simp only [List.map_cons, List.nodup_cons] at hn
    simp only [List.map_cons, eraseGroup]
    by_cases he : e.1 = (n.group, n.peer)
    · -- the entry itself
      have hex : e = ((n.group, n.peer), x) := by
        rcases List.mem_cons.mp hx with h | h
        · exact h.symm
        · exact absurd (List.mem_map.mpr ⟨_, h, rfl⟩) (by rw [he] at hn; exact hn.1)
      have hgp : e.2.group = n.group ∧ e.2.ptr = n.ptr := by
        rw [hke] at he
        refine ⟨by simpa using congrArg Prod.fst he, by rw [hex]; exact hxp⟩
      rw [if_pos hgp, List.filter_cons_of_neg (by simp [he])]
      congr 2
      symm
      rw [List.filter_eq_self]
      intro a ha
      simp only [decide_eq_true_eq]
      intro hak
      exact hn.1 (by rw [he, ← hak]; exact List.mem_map.mpr ⟨a, ha, rfl⟩)
    · have hx' : ((n.group, n.peer), x) ∈ es := by
        rcases List.mem_cons.mp hx with h | h
        · exact absurd (by rw [← h]) he
        · exact h
      have hnp : ¬ (e.2.group = n.group ∧ e.2.ptr = n.ptr) := by
        rintro ⟨_, hp'⟩
        have := hp e List.mem_cons_self _ (List.mem_cons_of_mem _ hx') (by rw [hp', hxp])
        exact he (by rw [this])
      rw [if_neg hnp, List.filter_cons_of_pos (by simp [he])]
      rw [ih (fun a ha => hk a (List.mem_cons_of_mem _ ha)) hn.2
        (fun a ha b hb => hp a (List.mem_cons_of_mem _ ha) b (List.mem_cons_of_mem _ hb)) hx']
      simp

/-- Pointers identify nodes: an added node is not registered under another id already. -/
def PtrOk (m : Maps G P) (n : Node G P) : Prop :=
  ∀ e ∈ m.nodeMap, e.2.ptr = n.ptr → e.2 = n

theorem inv_add {m : Maps G P} {n} (h : Inv m) (hp : PtrOk m n) : Inv (addNode m n).1 := by
  unfold addNode
  split
  · exact h
  · rename_i hf
    have hnone := find_none hf
    refine ⟨?_, ?_, ?_, ?_⟩
    · intro e he
      rcases List.mem_append.mp he with he | he
      · exact h.keys e he
      · simp at he; subst he; rfl
    · simp only [List.map_append, List.map_cons, List.map_nil]
      rw [List.nodup_append]
      refine ⟨h.nodup, by simp, ?_⟩
      intro a ha b hb
      simp at hb; subst hb
      obtain ⟨e, he, rfl⟩ := List.mem_map.mp ha
      exact hnone e he
    · simp [h.groups]
    · have key : ∀ e ∈ m.nodeMap, e.2.ptr ≠ n.ptr := by
        intro e he hpe
        have := hp e he hpe
        exact hnone e he (by rw [h.keys e he, this])
      intro a ha b hb hab
      rcases List.mem_append.mp ha with ha | ha <;> rcases List.mem_append.mp hb with hb | hb
      · exact h.ptrs a ha b hb hab
      · simp at hb; subst hb; exact absurd hab (key a ha)
      · simp at ha; subst ha; exact absurd hab.symm (key b hb)
      · simp at ha hb; rw [ha, hb]

theorem inv_remove {m : Maps G P} {n} (h : Inv m) : Inv (removeNode m n).1 := by
  unfold removeNode
  split
  · exact h
  · rename_i x hf
    split
    · exact h
    · rename_i hx
      have hx : x.ptr = n.ptr := Classical.not_not.mp hx
      have hmem := find_some hf
      refine ⟨?_, ?_, ?_, ?_⟩
      · intro e he; exact h.keys e (List.mem_filter.mp he).1
      · exact h.nodup.sublist (List.Sublist.map _ List.filter_sublist)
      · simp only
        rw [h.groups, eraseGroup_map n m.nodeMap h.keys h.nodup h.ptrs x hmem hx]
      · intro a ha b hb
        exact h.ptrs a (List.mem_filter.mp ha).1 b (List.mem_filter.mp hb).1

end Braft.NodeManager
