import Verif.Cluster.PipeNodeSafe
/-
Where the closures of a server are: which index a closure belongs to, waiting or handed to the state machine's
thread, and how that changes in a step of Cluster/PipeNode.lean.
-/
set_option linter.unusedVariables false
set_option linter.unusedSimpArgs false
set_option linter.unusedSectionVars false

namespace Braft.Cl
open Braft.Raft
variable {N D C : Type} [DecidableEq N] [DecidableEq D] {c0 : Conf N} {p : CParams}

/-- The closure `c` waits for index `idx`, or was taken for it. -/
def Slot (x : PN N D C) (idx : Nat) (c : C) : Prop :=
  (idx, c) ∈ x.popped ∨ ∃ k, x.n.bb.closures.queue[k]? = some (some c) ∧ idx = x.n.bb.closures.first + k

theorem Slot.congr {x y : PN N D C} {idx : Nat} {c : C} (h : Slot y idx c) (h1 : y.popped = x.popped)
    (h2 : y.n.bb.closures = x.n.bb.closures) : Slot x idx c := by
  unfold Slot at *
  rw [h1, h2] at h
  exact h

/-! ### Taking closures -/

def PopOf (q q' : ClosureQueue C) : Prop := q' = q ∨ ∃ i, q' = (q.popUntil i).1

theorem doCommitted_pop (f : Fsm.State D C) (e : Fsm.Env D) (c : Nat) : PopOf f.cq (f.doCommitted e c).cq := by
  unfold Fsm.State.doCommitted
  split
  · exact Or.inl rfl
  · split
    · exact Or.inl rfl
    · refine Or.inr ⟨c, ?_⟩
      dsimp only
      split
      · exact Pipe.setError_cq _
      · rfl

theorem flush_pop (f : Fsm.State D C) (e : Fsm.Env D) : PopOf f.cq (f.flush e).cq := by
  unfold Fsm.State.flush
  split
  · exact doCommitted_pop ..
  · exact Or.inl rfl

theorem task_pop (f : Fsm.State D C) (size : Nat) (e : Fsm.Env D) (t : Fsm.Task) : PopOf f.cq (f.task size e t).cq := by
  have h := flush_pop f e
  cases t with
  | committed i =>
    simp only [Fsm.State.task]
    split
    · rw [Pipe.take_cq]; exact Or.inl rfl
    · rw [Pipe.take_cq]; exact h
  | save w => simp only [Fsm.State.task]; rw [Pipe.doSave_cq]; exact h
  | load l => simp only [Fsm.State.task]; rw [Pipe.doLoad_cq]; exact h
  | leader => exact h
  | error => simp only [Fsm.State.task]; rw [Pipe.setError_cq]; exact h

theorem mem_numbered {l : List (Option C)} {f idx : Nat} {c : C}
    (h : (idx, c) ∈ (ClosureQueue.numberFrom f l).filterMap (fun p => p.2.map fun c => (p.1, c))) :
    ∃ k, l[k]? = some (some c) ∧ idx = f + k := by
  induction l generalizing f with
  | nil => cases h
  | cons a l ih =>
    simp only [ClosureQueue.numberFrom, List.filterMap_cons] at h
    cases a with
    | none =>
      obtain ⟨k, h1, h2⟩ := ih h
      exact ⟨k + 1, h1, by omega⟩
    | some y =>
      rcases List.mem_cons.mp h with h | h
      · cases h; exact ⟨0, rfl, rfl⟩
      · obtain ⟨k, h1, h2⟩ := ih h
        exact ⟨k + 1, h1, by omega⟩

theorem slot_put {x : PN N D C} {g : Fsm.State D C} (hg : PopOf x.n.bb.closures g.cq) {idx : Nat} {c : C}
    (h : Slot (Pipe.putFsm x g) idx c) : Slot x idx c := by
  rcases h with h | ⟨k, h1, h2⟩
  · have h : (idx, c) ∈ x.popped ++ Pipe.taken x.n.bb.closures g.cq := h
    rcases List.mem_append.mp h with h | h
    · exact Or.inl h
    · unfold Pipe.taken at h
      obtain ⟨k, h1, h2⟩ := mem_numbered h
      refine Or.inr ⟨k, ?_, h2⟩
      rw [List.getElem?_take] at h1
      split at h1
      · exact h1
      · cases h1
  · have h1 : g.cq.queue[k]? = some (some c) := h1
    have h2 : idx = g.cq.first + k := h2
    refine Or.inr ?_
    rcases hg with hg | ⟨i, hg⟩
    · rw [hg] at h1 h2; exact ⟨k, h1, h2⟩
    · rw [hg] at h1 h2
      unfold ClosureQueue.popUntil at h1 h2
      split at h1
      · rename_i hc; rw [if_pos hc] at h2; exact ⟨k, h1, h2⟩
      · rename_i hc; rw [if_neg hc] at h2
        split at h1
        · rename_i hd; rw [if_pos hd] at h2; exact ⟨k, h1, h2⟩
        · rename_i hd; rw [if_neg hd] at h2
          dsimp only at h1 h2
          rw [List.getElem?_drop] at h1
          simp only [Bool.or_eq_true, decide_eq_true_eq, not_or] at hc
          exact ⟨_, h1, by omega⟩

/-! ### Bounds -/

/-- A closure belongs to an index of the log; one that was taken to a committed one. -/
theorem Slot.le {x : PN N D C} (h : Pipe.Inv x) (hle : x.n.logErr = false) {idx : Nat} {c : C} (hs : Slot x idx c) :
    idx ≤ x.log.length ∧ 1 ≤ idx := by
  rcases hs with hs | ⟨k, h1, h2⟩
  · exact ⟨(h.pm _ hs).le, (h.pm _ hs).1⟩
  · have hk := (List.getElem?_eq_some_iff.mp h1).1
    have hp : x.n.bb.pending ≠ 0 := by
      intro h0
      obtain ⟨hh, hr⟩ := h.box
      have := ((BallotBox.reach_inv hr).follower h0).2
      rw [this] at hk; simp at hk
    have := (h.al hp).2.2 hle
    have := (h.al hp).1
    omega

/-- The closure is one that was given to apply() or of a configuration entry. -/
theorem Slot.given {x : PN N D C} (h : Pipe.Inv x) {idx : Nat} {c : C} (hs : Slot x idx c) : c ∈ Pipe.dones x.given ++ x.confs := by
  rw [h.cons.mem_iff]
  simp only [List.mem_append]
  rcases hs with hs | ⟨k, h1, h2⟩
  · exact Or.inr (Or.inr (Or.inr (List.mem_map.mpr ⟨_, hs, rfl⟩)))
  · exact Or.inr (Or.inl (List.mem_filterMap.mpr ⟨_, List.mem_of_getElem? h1, rfl⟩))

/-- An index has one closure. -/
theorem Slot.unique {x : PN N D C} (h : Pipe.Inv x) {idx : Nat} {c c' : C} (hs : Slot x idx c) (hs' : Slot x idx c') : c = c' := by
  have hpop : ∀ {a b : C}, (idx, a) ∈ x.popped → (∃ k, x.n.bb.closures.queue[k]? = some (some b) ∧ idx = x.n.bb.closures.first + k) → False := by
    intro a b h1 ⟨k, h2, h3⟩
    have hk := (List.getElem?_eq_some_iff.mp h2).1
    have hp : x.n.bb.pending ≠ 0 := by
      intro h0
      obtain ⟨hh, hr⟩ := h.box
      have := ((BallotBox.reach_inv hr).follower h0).2
      rw [this] at hk; simp at hk
    have := (h.pb _ h1).2 hp
    dsimp only at this
    omega
  rcases hs with hs | hs <;> rcases hs' with hs' | hs'
  · obtain ⟨n, hn, e1⟩ := List.mem_iff_getElem.mp hs
    obtain ⟨m, hm, e2⟩ := List.mem_iff_getElem.mp hs'
    have hord := List.pairwise_iff_getElem.mp h.ord
    rcases Nat.lt_trichotomy n m with hlt | heq | hlt
    · have := hord n m hn hm hlt; rw [e1, e2] at this; dsimp only at this; omega
    · subst heq; rw [e1] at e2; cases e2; rfl
    · have := hord m n hm hn hlt; rw [e1, e2] at this; dsimp only at this; omega
  · exact (hpop hs hs').elim
  · exact (hpop hs' hs).elim
  · obtain ⟨k, h1, h2⟩ := hs
    obtain ⟨m, h3, h4⟩ := hs'
    have : k = m := by omega
    subst this
    rw [h1] at h3; cases h3; rfl

/-! ### Handlers -/

theorem append_follower {c : Srv N D} (i : N) (t : Nat) (srv : N) (prev pt : Nat) (es : List (Entry N D)) (cm : Nat) (ok gone : Bool)
    (ht : ¬ t < c.term) : (sAppend i c t srv prev pt es cm ok gone).1.state = .follower := by
  have h := checkStepDown_follower i c t srv ok
  unfold sAppend
  rw [if_neg ht]
  dsimp only
  by_cases h2 : (sCheckStepDown i c t srv ok).1.leaderId ≠ some srv
  · rw [if_pos h2]; rfl
  rw [if_neg h2]
  by_cases h3 : es ≠ [] ∧ (sCheckStepDown i c t srv ok).1.dl.isSome = true
  · rw [if_pos h3]; exact h
  rw [if_neg h3]
  by_cases h4 : (if gone = true then 0 else termAt (sCheckStepDown i c t srv ok).1.log prev) ≠ pt
  · rw [if_pos h4]; exact h
  rw [if_neg h4]
  by_cases h5 : es = []
  · rw [if_pos h5]; exact h
  rw [if_neg h5]
  by_cases h6 : prev + es.length ≤ (sCheckStepDown i c t srv ok).1.applied
  · rw [if_pos h6]; exact h
  · rw [if_neg h6]; exact h

theorem disk_log (i : N) (c : Srv N D) : (sDisk i c).1.log = c.log := by
  unfold sDisk
  cases c.queue with
  | nil => rfl
  | cons j q =>
    cases j with
    | follower t upTo n cm l =>
      dsimp only
      by_cases h : t ≠ c.term
      · rw [if_pos h]
      · rw [if_neg h]; rfl
    | _ => rfl

/-- The log of a server after a handler: kept, extended by a configuration, or it does not lead. -/
theorem srv_log (hp : COk p) {s : CSys N D} {a : CAct N D} (hpre : cpre p c0 s a = true)
    (hr : restarts p a.at (s.node a.at) a = false) (h1 : ∀ i ds, a ≠ .apply i ds) (h3 : ∀ i, a ≠ .loaded i) :
    (ceff p c0 (s.node a.at) a).1.log = (s.node a.at).log ∨
    (∃ e, (ceff p c0 (s.node a.at) a).1.log = (s.node a.at).log ++ [e]) ∨
    (ceff p c0 (s.node a.at) a).1.state.leads = false := by
  have out : ∀ {c : Srv N D} {r : Res N D} {ab : Bool}, BOut c0 c r ab → ab = false →
      r.1.log = c.log ∨ (∃ e, r.1.log = c.log ++ [e]) ∨ r.1.state.leads = false := by
    intro c r ab h hab
    cases h with
    | same h _ _ => exact Or.inl h.log
    | boot c1 _ h => rw [h] at hab; cases hab
    | lead h => exact Or.inr (Or.inl ⟨_, h⟩)
  have sm : ∀ {c c' : Srv N D}, BSame c c' → c'.log = c.log ∨ (∃ e, c'.log = c.log ++ [e]) ∨ c'.state.leads = false :=
    fun h => Or.inl h.log
  cases a with
  | electB i f ok free => exact out (electB_b i (s.node i) f ok free) hr
  | timer i v free => exact out (timer_b i (s.node i) v free) hr
  | voteRes i r g rj d rt pt ok => exact out (voteRes_b i (s.node i) r g rj d rt pt ok) rfl
  | changeConf i cf => exact Or.inr (Or.inl ⟨_, rfl⟩)
  | append i t srv prev pt es cm ok gone =>
    show (sAppend i (s.node i) t srv prev pt es cm ok gone).1.log = _ ∨ _ ∨ (sAppend i (s.node i) t srv prev pt es cm ok gone).1.state.leads = false
    by_cases ht : t < (s.node i).term
    · left
      unfold sAppend
      rw [if_pos ht]
      rfl
    · right; right
      have := append_follower (c := s.node i) i t srv prev pt es cm ok gone ht
      rw [this]; rfl
  | disk i => exact Or.inl (disk_log i (s.node i))
  | replAck i f =>
    cases f with
    | send t to prev pt cm => simp [cpre] at hpre
    | ack t who first upTo => exact Or.inl rfl
  | elect i =>
    simp only [cpre, Bool.and_eq_true, Bool.not_eq_true'] at hpre
    exact sm (electA_b i (s.node i) false hpre.1)
  | timeoutNow i t st ok => exact sm (timeoutNow_b i (s.node i) t st ok)
  | voteReq i t cand claim dis => exact sm (voteReqA_b i (s.node i) t cand claim)
  | voteReqB i f free ok g => exact sm (voteReqB_b i (s.node i) f free ok g)
  | install i t srv K ok => exact sm (install_b i (s.node i) t srv K ok)
  | replRead i f cnt => exact sm (replRead_b i (s.node i) f cnt)
  | stepDown i t ok => exact sm (stepDown_b (s.node i) t ok)
  | transfer i => exact Or.inl rfl
  | transferTimeout i => exact Or.inl rfl
  | replSend i to prev => exact Or.inl rfl
  | replRes i who first upTo n => exact Or.inl rfl
  | sendIS i to => exact Or.inl rfl
  | saveSnap i k => exact Or.inl rfl
  | copied i => exact Or.inl rfl
  | dlDrop i => exact Or.inl rfl
  | fsm i => exact Or.inl rfl
  | crash i => cases hr
  | electDie i f => cases hr
  | apply i ds => exact absurd rfl (h1 i ds)
  | loaded i => exact absurd rfl (h3 i)

/-- The handler's own calls. -/
inductive HShape (c0 : Conf N) : List (POp N D C) → Prop
  | nil : HShape c0 []
  | follow (l) : HShape c0 [.follow l]
  | setC (k) : HShape c0 [.setCommitted k]
  | ack (a b q) : HShape c0 [.ack a b q]
  | conf (cc cf old) : HShape c0 [.confEntry cc cf old]
  | elect (t cc cf old) : HShape c0 [.elect t, .confEntry cc cf old]

theorem handler_shape (c : Srv N D) (a : CAct N D) (cc : C) : HShape c0 (handlerOps p c0 c a cc) := by
  unfold handlerOps
  split
  · exact .conf ..
  · unfold aeOps
    dsimp only
    repeat' split
    all_goals first | exact .nil | exact .follow _ | exact .setC _
  · unfold diskOps
    split
    · split
      · exact .nil
      · exact .setC _
    · exact .ack ..
    · exact .nil
  · exact .ack ..
  · split
    · exact .elect ..
    · exact .nil

theorem slot_down {c c' : Srv N D} {x : PN N D C} {idx : Nat} {d : C} (h : Slot (runOps x (downOps c c')) idx d) : Slot x idx d := by
  unfold downOps at h
  split at h
  · rcases h with h | ⟨k, h, _⟩
    · exact Or.inl h
    · have h : ([] : List (Option C))[k]? = _ := h
      simp at h
  · exact h

theorem commitAt_closures {P : Type} [DecidableEq P] (b : BallotBox P C) (f l : Nat) (q : P) : (b.commitAt f l q).1.closures = b.closures := by
  unfold BallotBox.commitAt
  dsimp only
  repeat' split
  all_goals rfl

theorem setCommitted_closures {P : Type} [DecidableEq P] (b : BallotBox P C) (k : Nat) : (b.setLastCommittedIndex k).1.closures = b.closures := by
  unfold BallotBox.setLastCommittedIndex
  repeat' split
  all_goals rfl

/-- The queue of closures of a follower is empty. -/
theorem queue_pending {x : PN N D C} (h : Pipe.Inv x) {k : Nat} {o : Option C} (hq : x.n.bb.closures.queue[k]? = some o) : x.n.bb.pending ≠ 0 := by
  intro h0
  obtain ⟨hh, hr⟩ := h.box
  have := ((BallotBox.reach_inv hr).follower h0).2
  rw [this] at hq; simp at hq

theorem runOps_sync (x : PN N D C) (ops : List (POp N D C)) (y : PN N D C) (c : Srv N D) :
    (runOps x (ops ++ [syncOp c0 y c])).popped = (runOps x ops).popped ∧
    (runOps x (ops ++ [syncOp c0 y c])).n.bb = (runOps x ops).n.bb ∧
    (runOps x (ops ++ [syncOp c0 y c])).log = (runOps x ops).log := by
  rw [runOps_append]; exact ⟨rfl, rfl, rfl⟩

/-- A closure after a handler was there before, or belongs to a configuration entry. -/
theorem slot_handler {x y : PN N D C} {c c' c'' : Srv N D} {ops : List (POp N D C)} (hsh : HShape c0 ops)
    (hle : x.n.logErr = false)
    (hi : Pipe.Inv (runOps x (downOps c c' ++ (ops ++ [syncOp c0 y c''])))) {idx : Nat} {d : C}
    (h : Slot (runOps x (downOps c c' ++ (ops ++ [syncOp c0 y c'']))) idx d) :
    Slot x idx d ∨ ∃ t j, (runOps x (downOps c c' ++ (ops ++ [syncOp c0 y c'']))).log[idx - 1]? = some ⟨t, .conf j⟩ := by
  rw [← List.append_assoc] at h hi ⊢
  obtain ⟨e1, e2, e3⟩ := runOps_sync (c0 := c0) x (downOps c c' ++ ops) y c''
  have h : Slot (runOps x (downOps c c' ++ ops)) idx d := h.congr e1 (by rw [e2])
  have hle1 : (runOps x (downOps c c')).n.logErr = false := by
    unfold downOps; split <;> exact hle
  have hle2 : (runOps x (downOps c c' ++ ops ++ [syncOp c0 y c''])).n.logErr = false := by
    rw [runOps_append]; rfl
  have hal : (runOps x (downOps c c' ++ ops)).n.bb.pending ≠ 0 →
      (runOps x (downOps c c' ++ ops)).n.bb.closures.first + (runOps x (downOps c c' ++ ops)).n.bb.closures.queue.length =
        (runOps x (downOps c c' ++ ops)).log.length + 1 := by
    intro hp
    have := (hi.al (by rw [e2]; exact hp)).2.2 hle2
    rw [e2, e3] at this
    exact this
  have hqp : ∀ {k : Nat} {o : Option C}, (runOps x (downOps c c' ++ ops)).n.bb.closures.queue[k]? = some o → (runOps x (downOps c c' ++ ops)).n.bb.pending ≠ 0 := by
    intro k o hq
    rw [← e2] at hq ⊢
    exact queue_pending hi hq
  rw [e3]
  clear e1 e2 e3 hi
  rw [runOps_append] at *
  have hd := fun h => @slot_down N D C _ _ c c' x idx d h
  generalize hx1 : runOps x (downOps c c') = x1 at *
  cases hsh with
  | nil => exact Or.inl (hd h)
  | follow l => exact Or.inl (hd (h.congr rfl rfl))
  | setC k => exact Or.inl (hd (h.congr rfl (setCommitted_closures ..)))
  | ack a b q => exact Or.inl (hd (h.congr rfl (commitAt_closures ..)))
  | conf cc cf old =>
    have hst : runOps x1 [.confEntry cc cf old] =
        { x1 with n := { x1.n with bb := x1.n.bb.appendPendingTask cf old (some cc), lastIndex := x1.n.lastIndex + 1 }
                  log := x1.log ++ [⟨x1.n.term, .conf old.isSome⟩], confs := x1.confs ++ [cc] } := by
      show Pipe.confEntry x1 cc cf old = _
      unfold Pipe.confEntry
      dsimp only
      rw [if_neg (by rw [hle1]; simp)]
    rw [hst] at h hal hqp ⊢
    rcases h with h | ⟨k, h1, h2⟩
    · exact Or.inl (hd (Or.inl h))
    · have hp := hal (hqp h1)
      have h1 : (x1.n.bb.closures.queue ++ [some cc])[k]? = some (some d) := h1
      have h2 : idx = x1.n.bb.closures.first + k := h2
      have hp : x1.n.bb.closures.first + (x1.n.bb.closures.queue ++ [some cc]).length = (x1.log ++ [(⟨x1.n.term, .conf old.isSome⟩ : Fsm.Entry D)]).length + 1 := hp
      simp only [List.length_append, List.length_singleton] at hp
      by_cases hk : k < x1.n.bb.closures.queue.length
      · rw [List.getElem?_append_left hk] at h1
        exact Or.inl (hd (Or.inr ⟨k, h1, h2⟩))
      · have hk2 := (List.getElem?_eq_some_iff.mp h1).1
        simp only [List.length_append, List.length_singleton] at hk2
        right
        refine ⟨x1.n.term, old.isSome, ?_⟩
        show (x1.log ++ [_])[idx - 1]? = _
        rw [show idx - 1 = x1.log.length by omega]
        simp
  | elect t cc cf old =>
    have hst : runOps x1 [.elect t, .confEntry cc cf old] =
        { x1 with n := { (Pipe.elect x1 t).n with bb := (Pipe.elect x1 t).n.bb.appendPendingTask cf old (some cc), lastIndex := x1.n.lastIndex + 1 }
                  log := x1.log ++ [⟨t, .conf old.isSome⟩], confs := x1.confs ++ [cc] } := by
      show Pipe.confEntry (Pipe.elect x1 t) cc cf old = _
      unfold Pipe.confEntry
      dsimp only
      rw [if_neg (by show ¬ x1.n.logErr = true; rw [hle1]; simp)]
      rfl
    rw [hst] at h hal hqp ⊢
    rcases h with h | ⟨k, h1, h2⟩
    · exact Or.inl (hd (Or.inl h))
    · have hp := hal (hqp h1)
      have h1 : (x1.n.bb.closures.queue ++ [some cc])[k]? = some (some d) := h1
      have h2 : idx = x1.log.length + 1 + k := h2
      have hp : x1.log.length + 1 + (x1.n.bb.closures.queue ++ [some cc]).length = (x1.log ++ [(⟨t, .conf old.isSome⟩ : Fsm.Entry D)]).length + 1 := hp
      simp only [List.length_append, List.length_singleton] at hp
      have hk2 := (List.getElem?_eq_some_iff.mp h1).1
      simp only [List.length_append, List.length_singleton] at hk2
      right
      refine ⟨t, old.isSome, ?_⟩
      show (x1.log ++ [_])[idx - 1]? = _
      rw [show idx - 1 = x1.log.length by omega]
      simp

/-- A process that has just started has no closures. -/
theorem boot_slot (c c' : Srv N D) (y : PN N D C) {idx : Nat} {d : C}
    (h : Slot (runOps (Pipe.State.init c0.peers : PN N D C) (bootOps c0 c ++ [syncOp c0 y c'])) idx d) : False := by
  have hno : ¬ Slot (Pipe.State.init c0.peers : PN N D C) idx d := by
    rintro (h | ⟨k, h, _⟩)
    · cases h
    · have h : ([] : List (Option C))[k]? = _ := h
      simp at h
  obtain ⟨e1, e2, e3⟩ := runOps_sync (c0 := c0) (Pipe.State.init c0.peers : PN N D C) (bootOps c0 c) y c'
  have h := h.congr e1 (by rw [e2])
  apply hno
  unfold bootOps at h
  split at h
  · exact h.congr rfl rfl
  · exact (slot_put (task_pop (Pipe.fsmOf (Pipe.step (Pipe.State.init c0.peers : PN N D C) (.follow (fents c.log)))) _ _ _) h).congr rfl rfl

/-! ### Steps -/

theorem fents_conf {l : Log N D} {k t : Nat} {j : Bool} (h : (fents l)[k]? = some ⟨t, .conf j⟩) :
    ∃ cf, l[k]? = some ⟨t, .conf cf⟩ := by
  rw [fents_get] at h
  cases hl : l[k]? with
  | none => rw [hl] at h; cases h
  | some e =>
    rw [hl] at h
    obtain ⟨t', pl⟩ := e
    cases pl with
    | data d => simp [fent, kindOf] at h
    | conf cf =>
      simp only [fent, kindOf, Option.map_some, Option.some.injEq, Fsm.Entry.mk.injEq] at h
      exact ⟨cf, by rw [h.1]⟩

/-- A closure of a node that does not lead was taken, its index is committed. -/
theorem slot_committed {c : Srv N D} {x : PN N D C} (h : Both c0 c x) (hb : BF c) (hl : c.state.leads = false) {idx : Nat} {d : C}
    (hs : Slot x idx d) : (idx, d) ∈ x.popped ∧ idx ≤ c.bb.lastCommitted := by
  rcases hs with hs | ⟨k, h1, _⟩
  · refine ⟨hs, ?_⟩
    have := (h.inv.pb _ hs).1
    rw [h.half.core.bb.lc] at this
    exact this
  · have := queue_pending h.inv h1
    rw [h.half.core.bb.pe] at this
    exact absurd (hb.fol hl).1 this

theorem Slot.len {c : Srv N D} {x : PN N D C} (h : Both c0 c x) {idx : Nat} {d : C} (hs : Slot x idx d) : idx ≤ c.log.length ∧ 1 ≤ idx := by
  have := hs.le h.inv h.half.core.le
  rw [h.half.core.log] at this
  unfold fents at this
  rw [List.length_map] at this
  exact this

/-- What a step does with the closures of a node: one that is there was there, and the log up to its entry is what it
was; or it is of a configuration entry; or the node led, and appended its entry in this step. -/
def SlotStep (s s' : PSys N D C) : Prop :=
  ∀ j idx d, Slot (s'.pn j) idx d →
    (Slot (s.pn j) idx d ∧ (s'.cl.node j).log.take idx = (s.cl.node j).log.take idx) ∨
    (∃ t cf, (s'.cl.node j).log[idx - 1]? = some ⟨t, .conf cf⟩) ∨
    ((s.cl.node j).state = .leader ∧ (s.cl.node j).log.length < idx ∧ idx ≤ (s'.cl.node j).log.length ∧
      ∃ ds : List D, (s'.cl.node j).log = (s.cl.node j).log ++ ds.map (fun d => ⟨(s.cl.node j).term, .data d⟩))

theorem slotStep_upd {s : PSys N D C} {cl : CSys N D} {i : N} {x : PN N D C} (hne : ∀ j, j ≠ i → cl.node j = s.cl.node j)
    (h : ∀ idx d, Slot x idx d →
      (Slot (s.pn i) idx d ∧ (cl.node i).log.take idx = (s.cl.node i).log.take idx) ∨
      (∃ t cf, (cl.node i).log[idx - 1]? = some ⟨t, .conf cf⟩) ∨
      ((s.cl.node i).state = .leader ∧ (s.cl.node i).log.length < idx ∧ idx ≤ (cl.node i).log.length ∧
        ∃ ds : List D, (cl.node i).log = (s.cl.node i).log ++ ds.map (fun d => ⟨(s.cl.node i).term, .data d⟩))) :
    SlotStep s (s.upd cl i x) := by
  intro j idx d hs
  by_cases hj : j = i
  · subst hj
    have hs : Slot (updF s.pn j x j) idx d := hs
    simp only [updF, if_true] at hs
    exact h idx d hs
  · have hs : Slot (updF s.pn i x j) idx d := hs
    simp only [updF, hj, if_false] at hs
    refine Or.inl ⟨hs, ?_⟩
    show (cl.node j).log.take idx = _
    rw [hne j hj]

theorem fn_log {i : N} {n : Nat} {s s' : CSys N D} (h : FN i n s s') : (s'.node i).log = (s.node i).log := by
  obtain ⟨sm, q⟩ := h.eq
  rw [q]

theorem fn_rest {i : N} {n : Nat} {s s' : CSys N D} (h : FN i n s s') :
    (s'.node i).bb = (s.node i).bb ∧ (s'.node i).state = (s.node i).state ∧ (s'.node i).dl = (s.node i).dl := by
  obtain ⟨sm, q⟩ := h.eq
  rw [q]
  exact ⟨rfl, rfl, rfl⟩

/-- A batch. -/
theorem batch_slot (hp : COk p) {s : PSys N D C} (h : PInv p c0 s) {i : N} {k : Nat} {c' : Srv N D}
    (hb' : Both c0 c' (Pipe.step (s.pn i) (.batch k)))
    (hl : c'.log = (s.cl.node i).log ++ ((accepted (s.pn i) k).map (·.data)).map (fun d => ⟨(s.cl.node i).term, .data d⟩))
    {idx : Nat} {d : C} (hs : Slot (Pipe.step (s.pn i) (.batch k)) idx d) :
    (Slot (s.pn i) idx d ∧ c'.log.take idx = (s.cl.node i).log.take idx) ∨
    ((s.cl.node i).state = .leader ∧ (s.cl.node i).log.length < idx ∧ idx ≤ c'.log.length) := by
  have hb := h.both i
  have hlen := hs.len hb'
  obtain ⟨li, er, he⟩ := batch_eq (s.pn i) hb.half.core.le k
  have hcl : ∀ (ts : List (Option C)) (b : BallotBox N C), (ts.foldl (fun b d => b.appendPendingTask (s.pn i).n.conf
      (if (s.pn i).n.old.isEmpty then none else some (s.pn i).n.old) d) b).closures = ⟨b.closures.first, b.closures.queue ++ ts⟩ := by
    intro ts
    induction ts with
    | nil => intro b; simp
    | cons t ts ih => intro b; rw [List.foldl_cons, ih]; simp [BallotBox.appendPendingTask, ClosureQueue.append]
  by_cases hold : Slot (s.pn i) idx d
  · left
    refine ⟨hold, ?_⟩
    rw [hl, List.take_append_of_le_length (hold.len hb).1]
  · right
    rw [he] at hs
    rcases hs with hs | ⟨m, h1, h2⟩
    · exact absurd (Or.inl hs) hold
    · dsimp only at h1 h2
      rw [hcl] at h1 h2
      dsimp only at h1 h2
      by_cases hm : m < (s.pn i).n.bb.closures.queue.length
      · rw [List.getElem?_append_left hm] at h1
        exact absurd (Or.inr ⟨m, h1, h2⟩) hold
      · rw [List.getElem?_append_right (by omega)] at h1
        have hne : accepted (s.pn i) k ≠ [] := by
          intro h0; rw [h0] at h1; simp at h1
        have hrole : (s.pn i).n.role = .leader := by
          apply Classical.byContradiction
          intro hn
          apply hne
          unfold accepted
          rw [if_neg (by intro h; exact hn h.1)]
        have hst : (s.cl.node i).state = .leader := by
          rw [hb.head.role] at hrole
          cases hs : (s.cl.node i).state <;> rw [hs] at hrole <;> first | rfl | cases hrole
        have hal := (hb.inv.al (hb.inv.role hrole)).2.2 hb.half.core.le
        rw [hb.half.core.log] at hal
        unfold fents at hal
        rw [List.length_map] at hal
        exact ⟨hst, by omega, hlen.1⟩

/-- Every step does that. -/
theorem pstep_slots (hp : COk p) {s s' : PSys N D C} (h : PInv p c0 s) {a : PAct N D C} (hs : pstep p c0 s a = some s') :
    SlotStep s s' := by
  have h' := (pstep_inv hp h hs).1
  cases a with
  | srv a cc =>
    simp only [pstep] at hs
    split at hs
    · rename_i hok
      obtain ⟨cl, hcl, rfl⟩ := Option.map_eq_some_iff.mp hs
      obtain ⟨hpre, hn, hne⟩ := cstep_some hcl
      have hc : CSteps p c0 s.cl cl := .tail a .refl hcl
      have na : ∀ i ds, a ≠ .apply i ds := by intros; rintro rfl; cases hok
      have nf : ∀ i, a ≠ .fsm i := by intros; rintro rfl; cases hok
      have nl : ∀ i, a ≠ .loaded i := by intros; rintro rfl; cases hok
      have hb' : Both c0 (cl.node a.at) (pipeEff p c0 (s.cl.node a.at) (s.pn a.at) a cc) := srv_both hp h.reach hcl (h.both a.at) cc na nf nl
      have hb := h.both a.at
      have hbf' := bf_reach hp (csteps_trans h.reach hc) a.at
      refine slotStep_upd hne ?_
      intro idx d hsl
      by_cases hr : restarts p a.at (s.cl.node a.at) a = true
      · unfold pipeEff at hsl
        dsimp only at hsl
        rw [if_pos hr] at hsl
        exact (boot_slot _ _ _ hsl).elim
      · have hr : restarts p a.at (s.cl.node a.at) a = false := by simpa using hr
        have hsl0 := hsl
        have hpop : (pipeEff p c0 (s.cl.node a.at) (s.pn a.at) a cc).popped = (s.pn a.at).popped := by
          unfold pipeEff
          dsimp only
          rw [if_neg (by rw [hr]; simp)]
          refine (runOps_quiet _ ?_ _).2
          intro op hop
          simp only [List.mem_append, List.mem_singleton] at hop
          rcases hop with hop | hop | rfl
          · exact downOps_quiet _ _ _ hop
          · exact handlerOps_quiet _ _ _ _ hop
          · rfl
        have hi' := hb'.inv
        have hlog' := hb'.half.core.log
        unfold pipeEff at hsl hi' hlog'
        dsimp only at hsl hi' hlog'
        rw [if_neg (by rw [hr]; simp)] at hsl hi' hlog'
        rcases slot_handler (handler_shape (s.cl.node a.at) a cc) hb.half.core.le hi' hsl with hold | ⟨t, j, hcf⟩
        · left
          refine ⟨hold, ?_⟩
          have hlog := srv_log hp hpre hr na nl
          rw [← hn] at hlog
          rcases hlog with hlog | ⟨e, hlog⟩ | hlog
          · rw [hlog]
          · rw [hlog, List.take_append_of_le_length (hold.len hb).1]
          · obtain ⟨h1, h2⟩ := slot_committed hb' hbf' hlog hsl0
            rw [hpop] at h1
            have h3 := (hb.inv.pb _ h1).1
            rw [hb.half.core.bb.lc] at h3
            exact (committed_take hp h.reach hc (Or.inl h3) (Or.inl h2)).symm
        · right; left
          rw [hlog'] at hcf
          obtain ⟨cf, hcf⟩ := fents_conf hcf
          exact ⟨t, cf, hcf⟩
    · cases hs
  | submit i t =>
    simp only [pstep] at hs
    split at hs
    · cases hs
    · cases hs
      refine slotStep_upd (fun _ _ => rfl) ?_
      intro idx d hsl
      refine Or.inl ⟨?_, rfl⟩
      simp only [Pipe.step, Pipe.submit] at hsl
      split at hsl <;> exact hsl.congr rfl rfl
  | stop i =>
    cases hs
    exact slotStep_upd (fun _ _ => rfl) (fun idx d hsl => Or.inl ⟨hsl.congr rfl rfl, rfl⟩)
  | modes i a b =>
    cases hs
    exact slotStep_upd (fun _ _ => rfl) (fun idx d hsl => Or.inl ⟨hsl.congr rfl rfl, rfl⟩)
  | batch i k =>
    simp only [pstep] at hs
    have hb := h.both i
    have hbf := bf_reach hp h.reach i
    rw [batch_newData _ hb.half.core.le] at hs
    split at hs
    · rename_i he
      cases hs
      have he : (accepted (s.pn i) k).map (·.data) = [] := by simpa using he
      refine slotStep_upd (fun _ _ => rfl) ?_
      intro idx d hsl
      have hb' : Both c0 (s.cl.node i) (Pipe.step (s.pn i) (.batch k)) := batch_both hb hbf k (by rw [he]; simp) rfl (by rw [he]; rfl) rfl rfl
      rcases batch_slot hp h hb' (by rw [he]; simp) hsl with h1 | ⟨h1, h2, h3⟩
      · exact Or.inl h1
      · omega
    · obtain ⟨cl, hcl, rfl⟩ := Option.map_eq_some_iff.mp hs
      obtain ⟨_, hn, hne⟩ := cstep_some hcl
      have hn : cl.node i = sAppendOwn (s.cl.node i) (confOf c0 (s.cl.node i).log)
        (((accepted (s.pn i) k).map (·.data)).map (fun d => ⟨(s.cl.node i).term, .data d⟩)) := hn
      refine slotStep_upd hne ?_
      intro idx d hsl
      have hb' : Both c0 (cl.node i) (Pipe.step (s.pn i) (.batch k)) := by
        rw [hn]; exact batch_both hb hbf k rfl rfl rfl rfl rfl
      have hl : (cl.node i).log = (s.cl.node i).log ++ ((accepted (s.pn i) k).map (·.data)).map (fun d => ⟨(s.cl.node i).term, .data d⟩) := by
        rw [hn]; rfl
      rcases batch_slot hp h hb' hl hsl with h1 | ⟨h1, h2, h3⟩
      · exact Or.inl h1
      · exact Or.inr (Or.inr ⟨h1, h2, h3, _, hl⟩)
  | fsm i size us bad t =>
    simp only [pstep] at hs
    split at hs
    · rename_i hok
      obtain ⟨hf, hrun⟩ := fsm_fs h i size us bad hok
      obtain ⟨cl, h1, h2, h3, h4, h5⟩ := fsm_round (p := p) h hf hrun
      have hs : (fsmN p c0 i (((Pipe.fsmOf (s.pn i)).task size (envOf (s.pn i).log us bad) t).applied - (s.pn i).f.applied) s.cl).map
        (fun cl => s.upd cl i (Pipe.step (s.pn i) (.fsm size (envOf (s.pn i).log us bad) t))) = some s' := hs
      rw [h1] at hs
      cases hs
      exact slotStep_upd h3.ne (fun idx d hsl => Or.inl ⟨slot_put (task_pop ..) hsl, by rw [fn_log h3]⟩)
    · cases hs
  | fsmEnd i us bad =>
    obtain ⟨hf, hrun, _⟩ := fsmEnd_fs h i us bad
    obtain ⟨cl, h1, h2, h3, h4, h5⟩ := fsm_round (p := p) h hf hrun
    have hs : (fsmN p c0 i (((Pipe.fsmOf (s.pn i)).flush (envOf (s.pn i).log us bad)).applied - (s.pn i).f.applied) s.cl).map
        (fun cl => s.upd cl i (Pipe.step (s.pn i) (.fsmEnd (envOf (s.pn i).log us bad)))) = some s' := hs
    rw [h1] at hs
    cases hs
    exact slotStep_upd h3.ne (fun idx d hsl => Or.inl ⟨slot_put (flush_pop ..) hsl, by rw [fn_log h3]⟩)
  | load i us bad ok =>
    simp only [pstep] at hs
    split at hs
    · rename_i hdl
      obtain ⟨hf, hrun, hpd⟩ := fsmEnd_fs h i us bad
      obtain ⟨cl, h1, h2, h3, h4, h5⟩ := fsm_round (p := p) h hf hrun
      have h1 : fsmN p c0 i ((Pipe.step (s.pn i) (.fsmEnd (envOf (s.pn i).log us bad))).f.applied - (s.pn i).f.applied) s.cl = some cl := h1
      rw [h1] at hs
      simp only [Option.bind_some] at hs
      have h4 : Both c0 (cl.node i) (Pipe.step (s.pn i) (.fsmEnd (envOf (s.pn i).log us bad))) := h4
      have hsub : ∀ idx d, Slot (Pipe.step (s.pn i) (.fsmEnd (envOf (s.pn i).log us bad))) idx d → Slot (s.pn i) idx d :=
        fun idx d hsl => slot_put (flush_pop ..) hsl
      generalize Pipe.step (s.pn i) (.fsmEnd (envOf (s.pn i).log us bad)) = x1 at *
      split at hs
      · cases hs
        exact slotStep_upd h3.ne (fun idx d hsl => Or.inl ⟨hsub idx d hsl, by rw [fn_log h3]⟩)
      · split at hs
        · obtain ⟨cl2, hcl, rfl⟩ := Option.map_eq_some_iff.mp hs
          obtain ⟨_, hn, hne⟩ := cstep_some hcl
          have hn : cl2.node i = sLoaded (cl.node i) := hn
          refine slotStep_upd (fun j hj => (hne j hj).trans (h3.ne j hj)) ?_
          intro idx d hsl
          have hsl1 : Slot x1 idx d := by
            have hsl : Slot (Pipe.step (Pipe.step x1 (.follow (fents (cl2.node i).log)))
              (.fsm 0 (envOf (fents (cl2.node i).log) (fun _ => []) (fun _ => false))
                (.load (.snap (cl2.node i).psnap.length (lastTerm (cl2.node i).psnap) (oldOf (confOf c0 (cl2.node i).psnap)).isSome true)))) idx d :=
              hsl.congr rfl rfl
            exact (slot_put (task_pop (Pipe.fsmOf (Pipe.step x1 (.follow (fents (cl2.node i).log)))) _ _ _) hsl).congr rfl rfl
          refine Or.inl ⟨hsub idx d hsl1, ?_⟩
          have hr1 : CReachable p c0 cl := csteps_trans h.reach h2
          have hbf := bf_reach hp hr1 i
          have hld : (cl.node i).state.leads = false := hbf.dl (by
            rw [(fn_rest h3).2.2]
            simp only [decide_eq_true_eq] at hdl
            rw [hdl]; simp)
          have hcm := (slot_committed h4 hbf hld hsl1).2
          rw [← fn_log h3]
          refine (committed_take hp hr1 (.tail _ .refl hcl) (Or.inl hcm) (Or.inl ?_)).symm
          rw [hn, (sLoaded_same _).1]
          exact hcm
        · cases hs
          refine slotStep_upd h3.ne (fun idx d hsl => Or.inl ⟨hsub idx d (slot_put (task_pop ..) hsl), by rw [fn_log h3]⟩)
    · cases hs

end Braft.Cl
