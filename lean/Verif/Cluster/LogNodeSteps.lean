import Verif.Cluster.LogNodeInv
/-
Every step of the joint model keeps the relation between a server's list and its LogManager: steps that queue
something.
-/
set_option linter.unusedVariables false
set_option linter.unusedSimpArgs false
set_option linter.unusedSectionVars false

namespace Braft.Cl
open Braft.Raft
open Braft.MemLog (Ent Consec)
open Braft.LogMgr (Sto Id number)
variable {N D : Type} [DecidableEq N] [DecidableEq D]

/-- Nothing that concerns the log has changed. -/
theorem Live.frame {c c' : Srv N D} {x : LNode N D} (h : Live c x) (h1 : c'.log = c.log) (h2 : c'.disk = c.disk)
    (h3 : c'.queue = c.queue) (h4 : c'.snap = c.snap) (h5 : c'.applied = c.applied) : Live c' x := by
  refine ⟨h.err, h.inv, by rw [h3]; exact h.cq, h.sq, by rw [h2]; exact h.st, by rw [h2]; exact h.zok,
    by rw [h4]; exact h.snap, by rw [h5, h1]; exact h.app, by rw [h1]; exact h.virt, by rw [h4]; exact h.fst,
    by rw [h1, h2, h4]; exact h.bs⟩

theorem Dead.frame {c c' : Srv N D} {x : LNode N D} (h : Dead c x) (h1 : c'.log = c.log) (h2 : c'.disk = c.disk)
    (h3 : c'.queue = c.queue) (h4 : c'.snap = c.snap) : Dead c' x := by
  refine ⟨h.err, ?_, by rw [h4]; exact h.fst⟩
  rw [h1, h2, h3, h4]
  exact h.st

/-- The log as a storage: what the storage will be when the queue is done. -/
def finSto (x : LNode N D) (l : Log N D) (n : Nat) : Sto (Payload N D) := ⟨x.lm.first, ents n (l.drop n)⟩

theorem View.fin {l : Log N D} {x : LNode N D} {n : Nat} (v : View l x.lm n) : StoRel l (finSto x l n) n :=
  ⟨v.first, v.le, rfl⟩

theorem Live.fin {c : Srv N D} {x : LNode N D} (h : Live c x) {n : Nat} (v : View c.log x.lm n) :
    x.lm.store.runAll (lmJobs x.z) = some (finSto x c.log n) := by
  have := v.inv.pend
  rw [h.sq] at this
  exact this

/-- Both sides queue the pairs `pz`. -/
theorem Live.push {c c' : Srv N D} {x : LNode N D} {m' : LM N D} {L' : List (Ent (Payload N D))} (h : Live c x) (f : SF c)
    {n : Nat} (v : View c.log x.lm n) (pz : List (Pair N D))
    (hi : LogMgr.Inv m' L') (he : m'.err = false) (hs : m'.store = x.lm.store)
    (hq : m'.queue = x.lm.queue ++ lmJobs pz) (hd : c'.disk = c.disk) (hcq : c'.queue = c.queue ++ flat pz)
    (hz : ZOk c.log (finSto x c.log n) pz) (hb : ZBase c'.log c'.snap c.log (finSto x c.log n) pz)
    (hl : c'.log.take c.snap.length = c.log.take c.snap.length) (hsl : c.snap.length ≤ c'.snap.length)
    (hsn : m'.snap = idOf c'.snap) (ha : m'.applied = ⟨c'.applied, termAt c'.log c'.applied⟩)
    (hv : ∀ n : Nat, m'.virt.index = n → n ≠ 0 → m'.virt.term = termAt c'.log n)
    (hf : m'.first - 1 ≤ c'.snap.length) : Live c' ⟨m', x.z ++ pz⟩ := by
  have hfin := h.fin v
  have hdr : drainJobs c.disk (flat x.z) = c.log := by rw [← h.cq, f.mem]
  have hfst := h.fst
  refine ⟨he, ⟨L', hi⟩, ?_, ?_, by rw [hd]; show StoR c.disk m'.store; rw [hs]; exact h.st, ?_, hsn, ha, hv, hf, ?_⟩
  · rw [hcq, h.cq, flat_append]
  · show m'.queue = _
    rw [hq, h.sq, lmJobs_append]
  · rw [hd]
    show ZOk c.disk m'.store _
    rw [hs]
    refine h.zok.append (fun a' ha' => ?_)
    rw [hfin] at ha'
    cases ha'
    rw [hdr]
    exact hz
  · rw [hd]
    show ZBase _ _ c.disk m'.store _
    rw [hs]
    refine ZBase.append (h.bs.mono c.snap.length h.zok h.st (fun a' ha' => ?_) hl hsl) (fun a' ha' => ?_)
    · rw [hfin] at ha'
      cases ha'
      show x.lm.first ≤ _
      omega
    · rw [hfin] at ha'
      cases ha'
      rw [hdr]
      exact hb

theorem vals_data (t : Nat) (ds : List D) :
    ds.map (fun d => ((t : Int), (Payload.data d : Payload N D))) = vals (ds.map (fun d => (⟨t, .data d⟩ : Entry N D))) := by
  unfold vals
  rw [List.map_map]
  rfl

theorem Live.base {c : Srv N D} {x : LNode N D} (h : Live c x) (f : SF c) {n : Nat} (v : View c.log x.lm n) :
    Base c.log c.snap c.log (finSto x c.log n) := Or.inr rfl

/-- A leader appends its own entries. -/
theorem Live.own {c c' : Srv N D} {x : LNode N D} (h : Live c x) (f : SF c) (es : Log N D) (cid : Nat) (g : Job N D)
    (hg : ∀ y : Log N D, applyJob y g = y) (hlog : c'.log = c.log ++ es) (hd : c'.disk = c.disk)
    (hcq : c'.queue = c.queue ++ (es.map .push ++ [g])) (hsn : c'.snap = c.snap) (ha : c'.applied = c.applied)
    (ht : ∀ e ∈ es, 1 ≤ e.term) :
    Live c' ⟨x.lm.appendLeader (vals es) cid, x.z ++
      pairUp ((x.lm.appendLeader (vals es) cid).queue.drop x.lm.queue.length) (c'.queue.drop c.queue.length)⟩ := by
  obtain ⟨n, v⟩ := h.view f
  have hL := v.inv.appendLeader h.err (vals es) cid (by
    intro w hw
    unfold vals at hw
    obtain ⟨e, he, rfl⟩ := List.mem_map.mp hw
    have := ht e he
    show (1 : Int) ≤ (e.term : Int)
    omega)
  have hm : x.lm.appendLeader (vals es) cid =
      ({ x.lm with last := x.lm.last + (vals es).length }).enqueue (number (x.lm.last + 1) (vals es)) cid := by
    unfold LogMgr.State.appendLeader
    rw [if_neg (by rw [h.err]; simp)]
  have hjob : number (x.lm.last + 1) (vals es) = ents c.log.length es := by rw [v.last]; rfl
  have hpu : pairUp ((x.lm.appendLeader (vals es) cid).queue.drop x.lm.queue.length) (c'.queue.drop c.queue.length) =
      [(some (.append (ents c.log.length es) cid), es.map .push ++ [g])] := by
    rw [hm, hcq, List.drop_left]
    unfold LogMgr.State.enqueue
    dsimp only
    rw [List.drop_left, hjob]
    rfl
  rw [hpu]
  have hsn' := f.sn.length_le
  have hap := f.ap
  have hdr : drainJobs c.log (es.map .push ++ [g]) = c.log ++ es := by
    rw [drainJobs_append, drain_push]
    exact hg _
  refine h.push f v _ hL ?_ ?_ ?_ hd ?_ ?_ ?_ ?_ ?_ ?_ ?_ ?_ ?_
  · rw [hm]; exact h.err
  · rw [hm]; rfl
  · rw [hm]; show x.lm.queue ++ [_] = _; rw [hjob]; rfl
  · rw [hcq]; simp [flat]
  · exact ⟨.append es g cid hg, fun a' ha' => trivial⟩
  · refine ⟨?_, fun a' ha' => ?_⟩
    · rw [hlog, hsn]
      refine (h.base f v).mono n ?_ ?_ (Nat.le_refl _)
      · show x.lm.first ≤ _; rw [v.first]; omega
      · rw [List.take_append_of_le_length v.le]
    · show Base _ _ (drainJobs c.log (es.map .push ++ [g])) a'
      rw [hdr, hlog]
      exact Or.inr rfl
  · rw [hlog, List.take_append_of_le_length hsn']
  · rw [hsn]; exact Nat.le_refl _
  · rw [hm, hsn]; exact h.snap
  · rw [hm, ha, hlog, termAt_append_left hap]; exact h.app
  · rw [hm, hlog]
    intro k hk hk0
    have hvt := h.virt k hk hk0
    have hkl : k ≤ c.log.length := by
      have hk' : x.lm.virt.index = k := hk
      rcases v.inv.virtOk with h1 | h1
      · rw [h1] at hk'; have : (0 : Int) = k := hk'; omega
      · have h2 := v.first
        have h3 := v.le
        omega
    rw [termAt_append_left hkl]
    exact hvt
  · rw [hm, hsn]; exact h.fst

/-- The virtual first id is before the first entry. -/
theorem View.virt_le {l : Log N D} {m : LM N D} {n : Nat} (v : View l m n) {k : Nat} (hk : m.virt.index = k) (h0 : k ≠ 0) :
    k = n := by
  have h2 := v.first
  rcases v.inv.virtOk with h1 | h1
  · rw [h1] at hk; have : (0 : Int) = k := hk; omega
  · omega

/-- set_applied_id after an entry was applied. -/
theorem Live.fsm {c c' : Srv N D} {x : LNode N D} (h : Live c x) (f : SF c) (hlt : c.applied < c.log.length)
    (hlog : c'.log = c.log) (hd : c'.disk = c.disk) (hcq : c'.queue = c.queue) (hsn : c'.snap = c.snap)
    (ha : c'.applied = c.applied + 1) :
    Live c' ⟨x.lm.setApplied ⟨c.applied + 1, x.lm.getTerm (c.applied + 1)⟩, x.z⟩ := by
  obtain ⟨n, v⟩ := h.view f
  have hfst := h.fst
  have hvf := v.first
  have hsa := f.sa
  have hgt : x.lm.getTerm ((c.applied : Int) + 1) = termAt c.log (c.applied + 1) := by
    rw [show (c.applied : Int) + 1 = ((c.applied + 1 : Nat) : Int) by omega]
    exact v.term (by omega)
  have hmono := f.mono c.applied (c.applied + 1) (by omega) (by omega)
  have hnl : Id.lt ⟨c.applied + 1, x.lm.getTerm (c.applied + 1)⟩ x.lm.applied = false := by
    rw [h.app, hgt]
    unfold Id.lt
    dsimp only
    split
    · simp only [decide_eq_false_iff_not]; omega
    · simp only [decide_eq_false_iff_not]; omega
  have hi := v.inv.setApplied ⟨c.applied + 1, x.lm.getTerm (c.applied + 1)⟩
    (fun _ => by rw [h.app]; show (c.applied : Int) ≤ c.applied + 1; omega)
    (by show (c.applied : Int) + 1 ≤ x.lm.last; rw [v.last]; omega)
  have hst : (x.lm.setApplied ⟨c.applied + 1, x.lm.getTerm (c.applied + 1)⟩) =
      { x.lm with applied := ⟨c.applied + 1, x.lm.getTerm (c.applied + 1)⟩, clears := x.lm.clears ++ [x.lm.disk.min ⟨c.applied + 1, x.lm.getTerm (c.applied + 1)⟩] } := by
    unfold LogMgr.State.setApplied
    rw [hnl]
    rfl
  refine ⟨by rw [hst]; exact h.err, ⟨_, hi⟩, by rw [hcq]; exact h.cq, by rw [hst]; exact h.sq,
    by rw [hst, hd]; exact h.st, by rw [hst, hd]; exact h.zok, by rw [hst, hsn]; exact h.snap, ?_, ?_, ?_, ?_⟩
  · rw [hst, ha, hlog]
    show (⟨_, _⟩ : Id) = _
    rw [hgt]
    congr 1
  · rw [hst, hlog]; exact h.virt
  · rw [hst, hsn]; exact h.fst
  · rw [hst, hlog, hsn, hd]; exact h.bs

end Braft.Cl
