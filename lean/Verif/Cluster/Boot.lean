import Verif.Cluster.SimD
import Verif.Raft.Boot
/-
A bootstrapped group (Verif/Raft/Boot.lean) as a cluster of servers (Verif/Cluster/Server.lean), and the simulation of its
executions by the cluster model.
-/
set_option linter.unusedVariables false
set_option linter.unusedSimpArgs false
set_option linter.unusedSectionVars false

namespace Braft.Cl
open Braft.Raft
variable {N D : Type} [DecidableEq N] [DecidableEq D]

/-- What bootstrap() left behind (node.cpp:393-497), see `Raft.Stage`. -/
def storedSrv (K : Log N D) (c : Conf N) (b : Stage) : Srv N D :=
  { freshSrv with log := b.disk K c, disk := b.disk K c, psnap := b.psnap K }

/-- The group when its members have been started (NodeImpl::init, node.cpp:499-660). -/
def bootC (K : Log N D) (c : Conf N) (B : N → Stage) : CSys N D :=
  { node := fun i => restartSrv (storedSrv K c (B i)), msgs := [], ev := [] }

/-- States of executions that start with a bootstrapped group. -/
def BReachable (p : CParams) (K : Log N D) (c : Conf N) (B : N → Stage) (s : CSys N D) : Prop := CSteps p c (bootC K c B) s

theorem boot_sr (K : Log N D) (c : Conf N) (B : N → Stage) (w : N) : SR c (bootC K c B) (bootSys K c B w) where
  node := fun i => {
    term := rfl, vote := rfl, role := Or.inl rfl, pterm := rfl, pvote := rfl, log := rfl, disk := rfl,
    snap := rfl, psnap := rfl, dl := rfl, applied := rfl, sm := rfl
    queue := by
      show QR (loadJobs ((B i).psnap K)) (loadOps ((B i).psnap K))
      simp only [loadJobs, loadOps]
      split
      · exact .nil
      · exact .cons (.snap _) .nil
    commit := rfl
    vf := rfl
    el := fun f hf => by cases hf
    eln := List.nodup_nil
    sn := by
      show (B i).psnap K ∈ [(B i).psnap K, (B i).disk K c]
      simp
    cand := fun hc => by cases hc
    rpc := fun hc => by cases hc
    pend := fun _ f hf => by cases hf
    vrs := ⟨fun r hr => (by cases hr), fun r hr => (by cases hr)⟩
    ask := fun hc => by cases hc
    lead := fun hc => by cases hc
    fol := fun _ => ⟨rfl, rfl⟩
    me := fun hc => by cases hc
    lid := fun l hl => by cases hl
    repl := fun f hf => by cases hf }
  msg := fun m hm => by cases hm
  ev := fun e he => by cases he

/-- A state of the servers, a matching one of the cluster model, and its invariant. -/
structure SRI (p : CParams) (c0 : Conf N) (s : CSys N D) (a : Sys N D) : Prop where
  rel : SR c0 s a
  inv : Inv c0 a
  timers : p.lease = false → ∀ i, (s.node i).timers = []

theorem sri_steps {p : CParams} (hp : COk p) {c0 : Conf N} {s s' : CSys N D} {a : Sys N D} (h : SRI p c0 s a)
    (hs : CSteps p c0 s s') : ∃ a', Steps Norm c0 a a' ∧ SRI p c0 s' a' := by
  induction hs with
  | refl => exact ⟨a, .refl, h⟩
  | tail x _ hx ih =>
    obtain ⟨a1, h1, h2⟩ := ih
    obtain ⟨b, ab, ro, ls⟩ := p
    obtain ⟨p1, p2, p3⟩ := hp
    dsimp only at p1 p2 p3
    subst p1; subst p2
    obtain ⟨a', s1, s2⟩ := sim_step h2.rel h2.inv x (p3.imp id h2.timers) hx
    exact ⟨a', steps_trans h1 s1, s2, inv_steps h2.inv s1, fun hl => timers_step hl hx (h2.timers hl)⟩

theorem boot_sri {p : CParams} {K : Log N D} {c : Conf N} {B : N → Stage} {w : N} (h : BootOk K c B w) :
    SRI p c (bootC K c B) (bootSys K c B w) :=
  ⟨boot_sr K c B w, inv_boot h, fun _ _ => rfl⟩

end Braft.Cl
