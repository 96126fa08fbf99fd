import Verif.Log.ManagerRun
/-
Snapshots and the log they replace, when the power fails.

LocalSnapshotStorage::close publishes a snapshot with rename() and afterwards deletes the old one
(snapshot.cpp:636-663); then SnapshotExecutor calls LogManager::set_snapshot (snapshot_executor.cpp:229-236, 258-262),
which has the log storage discard what the snapshot covers (log_manager.cpp:622-680). Neither the directory of the
snapshots nor that of the log is fsynced, so after a loss of power each may be found as it was at an earlier moment.

* The snapshot directory is reduced to the ids of the snapshots in it, newest first. A snapshot's own files are
  complete when it is renamed (C32); they are taken to be on disk then.
* The log is LogManager with the array it keeps on disk (Verif/Log/Manager.lean); what is in the array's files when
  the power fails is what it was at some earlier moment (Verif/Store/Power.lean has the files).
* `hist`: what the two were, together, at every moment that a loss of power can bring back if they are on one
  filesystem that keeps the order of changes. `dh` and `sh`: what each was, if they are on two filesystems.
-/
set_option linter.unusedVariables false
set_option linter.unusedSimpArgs false

namespace Braft.SnapPower
open Braft.LogMgr
open Braft.MemLog (Ent Consec consec_append consec_take)

variable {α : Type}

/-- The index of the newest snapshot, 0 if there is none (LocalSnapshotStorage::init, snapshot.cpp:470-515). -/
def top : List Id → Int
  | [] => 0
  | m :: _ => m.index

/-- The process and the disk. -/
structure World (α : Type) where
  mgr : LogMgr.State α
  dirs : List Id
  hist : List (List Id × Sto α)
  dh : List (List Id)
  sh : List (Sto α)

/-- NodeImpl::init (node.cpp:547-588): the log is read, then the newest snapshot is loaded and recorded
(SnapshotExecutor::init, snapshot_executor.cpp:340-400). -/
def bootMgr (d : List Id) (a : Sto α) : LogMgr.State α :=
  match d with
  | [] => init a
  | m :: _ => (init a).setSnapshot m

/-- A start from what is on the disk. -/
def World.boot (d : List Id) (a : Sto α) (hist : List (List Id × Sto α)) : World α :=
  { mgr := bootMgr d a, dirs := d, hist := (d, a) :: hist, dh := [d], sh := [a] }

/-- The log manager did something. -/
def World.put (w : World α) (s : LogMgr.State α) : World α :=
  { w with mgr := s, hist := (w.dirs, s.store) :: w.hist, sh := s.store :: w.sh }

/-- rename(temp, snapshot_<index>) (snapshot.cpp:649). -/
def World.publish (w : World α) (m : Id) : World α :=
  { w with
    dirs := m :: w.dirs
    hist := (m :: w.dirs, w.mgr.store) :: w.hist
    dh := (m :: w.dirs) :: w.dh }

/-- The directory of an old snapshot is gone (LocalSnapshotStorage::unref, snapshot.cpp:534-549). -/
def World.remove (w : World α) (rest : List Id) : World α :=
  { w with
    dirs := w.dirs.take 1 ++ rest
    hist := (w.dirs.take 1 ++ rest, w.mgr.store) :: w.hist
    dh := (w.dirs.take 1 ++ rest) :: w.dh }

/-- What one call of LogManager, or one step of its disk thread, does, other than set_snapshot and
clear_bufferred_logs (log_manager.cpp:125-146, 190-207, 407-519, 543-618, 801-821). -/
inductive LogOp (s : LogMgr.State α) : LogMgr.State α → Prop where
  | leader (vs : List (Int × α)) (cid : Nat) (ht : ∀ v ∈ vs, 1 ≤ v.1) : LogOp s (s.appendLeader vs cid)
  | append (es : List (Ent α)) (cid : Nat) (f : Int) (hc : Consec f es) (ht : ∀ e ∈ es, 1 ≤ e.term) :
      LogOp s (s.append es cid)
  | lastId (cid : Nat) : LogOp s (s.askLastId cid)
  | setApplied (i : Id) : LogOp s (s.setApplied i)
  | clear (c : Id) : LogOp s (s.clear c)
  | roundStart : LogOp s s.roundStart
  | roundEnd (l : Id) : LogOp s (s.roundEnd l)
  | flush (js rest : List (Job α)) (l : Id) (n : Nat) (late : Bool) (hq : s.queue = js ++ rest) (hj : AllAppends js)
      (hn : n ≤ (jobEnts js).length) : LogOp s (s.flush js rest l n late)
  | execOk (j : Job α) (rest : List (Job α)) (l : Id) (hq : s.queue = j :: rest)
      (hj : ∀ es c, j = .append es c → es = []) : LogOp s (s.execOk j rest l)
  /-- a storage call fails and leaves the array as it was -/
  | execFails (j : Job α) (rest : List (Job α)) (hq : s.queue = j :: rest) : LogOp s (s.execFails s.store rest)
  | error : LogOp s { s with err := true }

/-- A log on disk: consecutive entries with terms. -/
structure DiskOk (a : Sto α) : Prop where
  sto : StoOk a
  terms : ∀ e ∈ a.ents, 1 ≤ e.term

/-- What happens to a node. `a`, `ev`, `dn`: the history of its log manager since the last start (Log/ManagerRun.lean),
whose conditions every step of it satisfies. -/
inductive Life : Sto α → List Id → List (Job α) → World α → Prop where
  | boot {a : Sto α} {ev} (d : List Id) (hd : d.Pairwise (fun x y => y.index < x.index))
      (hp : ∀ m ∈ d, 0 < m.index ∧ 1 ≤ m.term) (hs : DiskOk a) (hc : a.first ≤ top d + 1) (r : Run a (bootMgr d a) ev []) :
      Life a ev [] (World.boot d a [])
  | log {a ev dn ev' dn' w} (h : Life a ev dn w) (s' : LogMgr.State α) (op : LogOp w.mgr s') (r : Run a s' ev' dn') :
      Life a ev' dn' (w.put s')
  /-- close(writer), the copier's or a save's: newer than what there is (C35) -/
  | publish {a ev dn w} (h : Life a ev dn w) (m : Id) (hm : top w.dirs < m.index) (ht : 1 ≤ m.term) :
      Life a ev dn (w.publish m)
  | remove {a ev dn w} (h : Life a ev dn w) (rest : List Id) (hs : rest.Sublist (w.dirs.drop 1)) :
      Life a ev dn (w.remove rest)
  /-- LogManager::set_snapshot, of a snapshot that was published (C34) -/
  | record {a ev dn ev' dn' w} (h : Life a ev dn w) (m : Id) (hm : m.index ≤ top w.dirs)
      (r : Run a (w.mgr.setSnapshot m) ev' dn') : Life a ev' dn' (w.put (w.mgr.setSnapshot m))
  /-- LogManager::clear_bufferred_logs, called for a snapshot request soon after the last snapshot
  (snapshot_executor.cpp:145-160) -/
  | clearBuffered {a ev dn ev' dn' w} (h : Life a ev dn w) (r : Run a w.mgr.clearBuffered ev' dn') :
      Life a ev' dn' (w.put w.mgr.clearBuffered)
  /-- the filesystem, or one of the two, gets its changes to the disk -/
  | sync {a ev dn w} (h : Life a ev dn w) (n k l : Nat) :
      Life a ev dn { w with hist := w.hist.take (n + 1), dh := w.dh.take (k + 1), sh := w.sh.take (l + 1) }
  /-- the process is killed, or the power fails, and the node starts again: everything on the one filesystem is as it
  was at some moment -/
  | crash {a ev dn w} {b : Sto α} {ev'} (h : Life a ev dn w) (x y : List (List Id × Sto α)) (d : List Id)
      (hh : w.hist = x ++ (d, b) :: y) (r : Run b (bootMgr d b) ev' []) : Life b ev' [] (World.boot d b y)

/-! ### What jobs are queued -/

/-- Jobs of the disk thread: entries to append are consecutive and have terms, and nothing above `t` is discarded. -/
def JobOk (t : Int) : Job α → Prop
  | .append es _ => (∀ f, es.head?.map (·.index) = some f → Consec f es) ∧ ∀ e ∈ es, 1 ≤ e.term
  | .truncPrefix k => k ≤ t + 1
  | .reset n => n ≤ t + 1
  | _ => True

theorem JobOk.mono {t u : Int} (h : t ≤ u) {j : Job α} (hj : JobOk t j) : JobOk u j := by
  cases j <;> simp only [JobOk] at * <;> first | exact hj | omega

theorem consec_head {f : Int} {es : List (Ent α)} (h : Consec f es) (g : Int) (hg : es.head?.map (·.index) = some g) :
    Consec g es := by
  cases es with
  | nil => simp at hg
  | cons e es =>
    simp only [List.head?_cons, Option.map_some, Option.some.injEq] at hg
    have : e.index = f := h.1
    rw [← hg, this]; exact h

theorem jobOk_suffix {t f : Int} {es es' : List (Ent α)} {c : Nat} (hc : Consec f es) (ht : ∀ e ∈ es, 1 ≤ e.term)
    (hs : es' <:+ es) : JobOk t (.append es' c) := by
  obtain ⟨p, hp⟩ := hs
  subst hp
  rw [consec_append] at hc
  exact ⟨fun g hg => consec_head hc.2 g hg, fun e he => ht e (List.mem_append_right _ he)⟩

theorem unmatched_suffix (s : LogMgr.State α) (es : List (Ent α)) : s.unmatched es <:+ es := by
  induction es with
  | nil => exact List.suffix_refl _
  | cons e es ih =>
    unfold State.unmatched
    split
    · exact List.suffix_refl _
    · exact ih.trans (List.suffix_cons e es)

theorem newOf_suffix (s : LogMgr.State α) (es : List (Ent α)) : s.newOf es <:+ es := by
  unfold State.newOf
  split
  · exact List.nil_suffix
  · cases hf : es.head? with
    | none => exact List.nil_suffix
    | some f =>
      cases hb : es.getLast? with
      | none => exact List.nil_suffix
      | some b =>
        dsimp only
        unfold State.check
        split
        · rename_i h
          split at h
          · simp at h
          · split at h
            · simp at h
            · split at h
              · cases h; exact List.suffix_refl _
              · split at h
                · cases h; exact List.nil_suffix
                · rename_i e rest hu
                  cases h
                  rw [← hu]; exact unmatched_suffix s es
        · exact List.nil_suffix

theorem number_terms {vs : List (Int × α)} (hv : ∀ v ∈ vs, 1 ≤ v.1) {i : Int} : ∀ e ∈ number i vs, 1 ≤ e.term := by
  induction vs generalizing i with
  | nil => intro e he; exact absurd he List.not_mem_nil
  | cons v vs ih =>
    intro e he
    rcases List.mem_cons.mp he with rfl | he
    · exact hv v List.mem_cons_self
    · exact ih (fun v hv' => hv v (List.mem_cons_of_mem _ hv')) e he

/-- What a step of the log manager does to the queue and the storage. -/
structure Frame (t : Int) (s s' : LogMgr.State α) : Prop where
  queue : ∀ j ∈ s'.queue, j ∈ s.queue ∨ JobOk t j
  snap : s'.snap = s.snap
  store : s'.store = s.store ∨ (∃ j ∈ s.queue, s.store.run j = some s'.store) ∨
    ∃ js n, s'.store = ⟨s.store.first, s.store.ents ++ (jobEnts js).take n⟩ ∧ (∀ j ∈ js, j ∈ s.queue) ∧ s.err = false ∧
      AllAppends js ∧ ∃ rest, s.queue = js ++ rest

theorem logOp_frame {s s' : LogMgr.State α} {t : Int} (h : LogOp s s') : Frame t s s' := by
  cases h with
  | leader vs cid hv =>
    unfold State.appendLeader
    split
    · exact ⟨fun j hj => Or.inl hj, rfl, Or.inl rfl⟩
    · refine ⟨?_, rfl, Or.inl rfl⟩
      intro j hj
      rcases List.mem_append.mp hj with hj | hj
      · exact Or.inl hj
      · right
        rw [List.mem_singleton.mp hj]
        refine ⟨fun g hg => consec_head (number_consec _ _).1 g hg, ?_⟩
        intro e he
        exact number_terms hv e he
  | append es cid f hc hte =>
    cases he : s.err with
    | true =>
      unfold State.append
      rw [if_pos he]
      exact ⟨fun j hj => Or.inl hj, rfl, Or.inl rfl⟩
    | false =>
      rcases append_cases s es cid he with ⟨_, r, hr⟩ | ⟨s1, hs1, b, hb⟩
      · rw [hr]; exact ⟨fun j hj => Or.inl hj, rfl, Or.inl rfl⟩
      · rw [hb]
        have hq : ∀ j ∈ s1.queue, j ∈ s.queue ∨ JobOk t j := by
          rcases hs1 with rfl | ⟨k, rfl⟩
          · exact fun j hj => Or.inl hj
          · intro j hj
            unfold State.truncateSuffix at hj
            split at hj
            · exact Or.inl hj
            · rcases List.mem_append.mp hj with hj | hj
              · exact Or.inl hj
              · rw [List.mem_singleton.mp hj]; exact Or.inr trivial
        have hsn : s1.snap = s.snap := by
          rcases hs1 with rfl | ⟨k, rfl⟩
          · rfl
          · unfold State.truncateSuffix; split <;> rfl
        have hst : s1.store = s.store := by
          rcases hs1 with rfl | ⟨k, rfl⟩
          · rfl
          · exact truncateSuffix_store _ _
        refine ⟨?_, hsn, Or.inl hst⟩
        intro j hj
        rcases List.mem_append.mp hj with hj | hj
        · exact hq j hj
        · rw [List.mem_singleton.mp hj]; exact Or.inr (jobOk_suffix hc hte (newOf_suffix s es))
  | lastId cid =>
    refine ⟨?_, rfl, Or.inl rfl⟩
    intro j hj
    rcases List.mem_append.mp hj with hj | hj
    · exact Or.inl hj
    · rw [List.mem_singleton.mp hj]; exact Or.inr trivial
  | setApplied i =>
    unfold State.setApplied
    split <;> exact ⟨fun j hj => Or.inl hj, rfl, Or.inl rfl⟩
  | clear c =>
    unfold State.clear
    split
    · exact ⟨fun j hj => Or.inl hj, rfl, Or.inl rfl⟩
    · split <;> exact ⟨fun j hj => Or.inl hj, rfl, Or.inl rfl⟩
  | roundStart => exact ⟨fun j hj => Or.inl hj, rfl, Or.inl rfl⟩
  | roundEnd l =>
    unfold State.roundEnd State.setDisk
    split <;> exact ⟨fun j hj => Or.inl hj, rfl, Or.inl rfl⟩
  | flush js rest l n late hq hj hn =>
    cases he : s.err with
    | true =>
      unfold State.flush
      simp only [he, if_true]
      exact ⟨fun j hj => Or.inl (by rw [hq]; exact List.mem_append_right _ hj), rfl, Or.inl rfl⟩
    | false =>
      unfold State.flush
      simp only [he, Bool.false_eq_true, if_false]
      exact ⟨fun j hj => Or.inl (by rw [hq]; exact List.mem_append_right _ hj), rfl,
        Or.inr (Or.inr ⟨js, n, rfl, fun j hj => by rw [hq]; exact List.mem_append_left _ hj, he, hj, rest, hq⟩)⟩
  | execOk j rest l hq hj =>
    have hst : (s.execOk j rest l).store = (s.store.run j).getD s.store := by unfold State.execOk; cases j <;> rfl
    have hqq : (s.execOk j rest l).queue = rest := by unfold State.execOk; cases j <;> rfl
    have hsn : (s.execOk j rest l).snap = s.snap := by unfold State.execOk; cases j <;> rfl
    refine ⟨?_, hsn, ?_⟩
    · rw [hqq]; intro x hx; left; rw [hq]; exact List.mem_cons_of_mem _ hx
    · rw [hst]
      cases hr : s.store.run j with
      | none => exact Or.inl rfl
      | some b => exact Or.inr (Or.inl ⟨j, by rw [hq]; exact List.mem_cons_self, hr⟩)
  | execFails j rest hq =>
    exact ⟨fun x hx => Or.inl (by rw [hq]; exact List.mem_cons_of_mem _ hx), rfl, Or.inl rfl⟩
  | error => exact ⟨fun j hj => Or.inl hj, rfl, Or.inl rfl⟩

theorem clearBuffered_frame {s : LogMgr.State α} {t : Int} (ht : s.snap.index ≤ t) : Frame t s s.clearBuffered := by
  unfold State.clearBuffered
  split
  · refine ⟨?_, rfl, Or.inl rfl⟩
    intro j hj
    rcases List.mem_append.mp hj with hj | hj
    · exact Or.inl hj
    · rw [List.mem_singleton.mp hj]; right; show s.snap.index + 1 ≤ t + 1; omega
  · exact ⟨fun j hj => Or.inl hj, rfl, Or.inl rfl⟩

/-- set_snapshot discards at most what the new snapshot covers, and unless the log lacks the entry only what the
previous one covers. -/
theorem setSnapshot_frame (s : LogMgr.State α) (m : Id) :
    (s.setSnapshot m).store = s.store ∧ (s.setSnapshot m).snap.index = max s.snap.index m.index ∧
    (∀ j ∈ (s.setSnapshot m).queue, j ∈ s.queue ∨ JobOk (max s.snap.index m.index) j) ∧
    (s.getTerm m.index = m.term → m.term ≠ 0 → ∀ j ∈ (s.setSnapshot m).queue, j ∈ s.queue ∨ JobOk s.snap.index j) := by
  refine ⟨setSnapshot_store _ _, ?_, ?_, ?_⟩
  · unfold State.setSnapshot State.truncatePrefix State.resetLog
    dsimp only
    repeat' split
    all_goals (try dsimp only) <;> omega
  · unfold State.setSnapshot State.truncatePrefix State.resetLog
    dsimp only
    intro j hj
    repeat' split at hj
    all_goals first
      | exact Or.inl hj
      | (rcases List.mem_append.mp hj with hj | hj
         · exact Or.inl hj
         · right
           rw [List.mem_singleton.mp hj]
           simp only [JobOk]
           omega)
  · intro h1 h2
    unfold State.setSnapshot State.truncatePrefix State.resetLog
    dsimp only
    intro j hj
    repeat' split at hj
    all_goals first
      | exact Or.inl hj
      | omega
      | (rcases List.mem_append.mp hj with hj | hj
         · exact Or.inl hj
         · right
           rw [List.mem_singleton.mp hj]
           simp only [JobOk]
           omega)

/-! ### The storage stays well formed -/

theorem mem_run {a b : Sto α} {j : Job α} (h : a.run j = some b) : ∀ e ∈ b.ents, e ∈ a.ents ∨ ∃ es c, j = .append es c ∧ e ∈ es := by
  intro e he
  cases j with
  | append es c =>
    simp only [Sto.run] at h
    split at h
    · cases h; exact Or.inl he
    · split at h
      · cases h
        rcases List.mem_append.mp he with he | he
        · exact Or.inl he
        · exact Or.inr ⟨es, c, rfl, he⟩
      · simp at h
  | truncPrefix k =>
    simp only [Sto.run] at h
    split at h
    · cases h; exact Or.inl (List.mem_of_mem_drop he)
    · simp at h
  | truncSuffix k t =>
    simp only [Sto.run] at h
    split at h
    · cases h; exact Or.inl (List.mem_of_mem_take he)
    · simp at h
  | reset n =>
    simp only [Sto.run] at h
    split at h
    · cases h; exact absurd he List.not_mem_nil
    · simp at h
  | lastId c w => simp only [Sto.run] at h; cases h; exact Or.inl he

theorem run_first {a b : Sto α} {j : Job α} {t : Int} (h : a.run j = some b) (hj : JobOk t j) (hf : a.first ≤ t + 1) :
    b.first ≤ t + 1 := by
  cases j with
  | append es c =>
    simp only [Sto.run] at h
    split at h
    · cases h; exact hf
    · split at h
      · cases h; exact hf
      · simp at h
  | truncPrefix k =>
    simp only [Sto.run] at h
    split at h
    · cases h; exact hj
    · simp at h
  | truncSuffix k t =>
    simp only [Sto.run] at h
    split at h
    · cases h; exact hf
    · simp at h
  | reset n =>
    simp only [Sto.run] at h
    split at h
    · cases h; exact hj
    · simp at h
  | lastId c w => simp only [Sto.run] at h; cases h; exact hf

/-- The storage after a step: well formed, and beginning no later than before or than a job allows. -/
theorem frame_store {a : Sto α} {ev dn} {s s' : LogMgr.State α} {t : Int} (r : Run a s ev dn) (hs : DiskOk s.store)
    (hq : ∀ j ∈ s.queue, JobOk t j) (hf : s.store.first ≤ t + 1) (u : Int) (h : Frame u s s') :
    DiskOk s'.store ∧ s'.store.first ≤ t + 1 := by
  rcases h.store with h1 | ⟨j, hj, hr⟩ | ⟨js, n, h1, hjs, he, haa, rest, hqr⟩
  · rw [h1]; exact ⟨hs, hf⟩
  · have hjo := hq j hj
    refine ⟨⟨run_ok hr hs.sto ?_, ?_⟩, run_first hr hjo hf⟩
    · rintro es c rfl
      exact hjo.1
    · intro e he
      rcases mem_run hr e he with he | ⟨es, c, rfl, he⟩
      · exact hs.terms e he
      · exact hjo.2 e he
  · obtain ⟨L, hg⟩ := r.good he
    obtain ⟨_, _, hra⟩ := hg.inv.flushOk he hqr haa ⟨0, 0⟩
    have hcon : Consec s.store.first (s.store.ents ++ jobEnts js) := by
      have hp := hg.inv.pend
      have : ∀ (js : List (Job α)) (b c : Sto α), b.runAll js = some c → StoOk b → (∀ j ∈ js, JobOk t j) → StoOk c := by
        intro js
        induction js with
        | nil => intro b c h hb _; simp only [Sto.runAll, Option.some.injEq] at h; subst h; exact hb
        | cons j js ih =>
          intro b c h hb hj
          simp only [Sto.runAll] at h
          cases hr : b.run j with
          | none => rw [hr] at h; simp at h
          | some b' =>
            rw [hr] at h
            refine ih b' c h (run_ok hr hb ?_) (fun x hx => hj x (List.mem_cons_of_mem _ hx))
            rintro es cc rfl
            exact (hj _ List.mem_cons_self).1
      exact (this js _ _ hra hs.sto (fun j hj => hq j (hjs j hj))).idx
    rw [h1]
    refine ⟨⟨⟨hs.sto.pos, ?_⟩, ?_⟩, hf⟩
    · show Consec s.store.first (s.store.ents ++ (jobEnts js).take n)
      have := consec_take _ _ hcon (s.store.ents.length + n)
      rwa [List.take_append, List.take_of_length_le (by omega), show s.store.ents.length + n - s.store.ents.length = n by omega] at this
    · intro e he
      rcases List.mem_append.mp he with he | he
      · exact hs.terms e he
      · obtain ⟨es, c, hm, hx⟩ := mem_jobEnts.mp (List.mem_of_mem_take he)
        exact (hq _ (hjs _ hm)).2 e hx

/-! ### One filesystem -/

/-- Snapshots, newest first. -/
structure DirsOk (d : List Id) : Prop where
  sorted : d.Pairwise (fun x y => y.index < x.index)
  pos : ∀ m ∈ d, 0 < m.index ∧ 1 ≤ m.term

theorem DirsOk.cons {d : List Id} (h : DirsOk d) {m : Id} (hm : top d < m.index) (ht : 1 ≤ m.term) : DirsOk (m :: d) := by
  have h0 : 0 ≤ top d := by
    cases d with
    | nil => exact Int.le_refl _
    | cons x d => have := (h.pos x List.mem_cons_self).1; show 0 ≤ x.index; omega
  refine ⟨List.pairwise_cons.mpr ⟨?_, h.sorted⟩, ?_⟩
  · intro x hx
    cases d with
    | nil => exact absurd hx List.not_mem_nil
    | cons y d =>
      have hm' : y.index < m.index := hm
      rcases List.mem_cons.mp hx with rfl | hx
      · exact hm'
      · have := (List.pairwise_cons.mp h.sorted).1 x hx; omega
  · intro x hx
    rcases List.mem_cons.mp hx with rfl | hx
    · exact ⟨by omega, ht⟩
    · exact h.pos x hx

theorem DirsOk.top_pos {d : List Id} (h : DirsOk d) : 0 ≤ top d := by
  cases d with
  | nil => exact Int.le_refl _
  | cons x d => have := (h.pos x List.mem_cons_self).1; show 0 ≤ x.index; omega

theorem DirsOk.sub {d d' : List Id} (h : DirsOk d) (hs : d'.Sublist d) : DirsOk d' :=
  ⟨h.sorted.sublist hs, fun m hm => h.pos m (hs.subset hm)⟩

theorem remove_sub {d rest : List Id} (hs : rest.Sublist (d.drop 1)) : (d.take 1 ++ rest).Sublist d := by
  have := (List.Sublist.refl (d.take 1)).append hs
  rwa [List.take_append_drop] at this

theorem remove_top {d rest : List Id} (hs : rest.Sublist (d.drop 1)) : top (d.take 1 ++ rest) = top d := by
  cases d with
  | nil =>
    have : rest = [] := by simpa using hs
    rw [this]; rfl
  | cons x d => rfl

/-- What a crash may leave: the snapshots reach the beginning of the log. -/
structure Left (d : List Id) (a : Sto α) : Prop where
  dirs : DirsOk d
  disk : DiskOk a
  cover : a.first ≤ top d + 1

structure WInv (w : World α) : Prop where
  now : Left w.dirs w.mgr.store
  snap : w.mgr.snap.index ≤ top w.dirs
  jobs : ∀ j ∈ w.mgr.queue, JobOk (top w.dirs) j
  hist : ∀ p ∈ w.hist, Left p.1 p.2

theorem bootMgr_frame {d : List Id} {a : Sto α} (hd : DirsOk d) :
    (bootMgr d a).store = a ∧ (bootMgr d a).snap.index = top d ∧ (∀ j ∈ (bootMgr d a).queue, JobOk (top d) j) ∧
    (bootMgr d a).mem = [] := by
  cases d with
  | nil => exact ⟨rfl, rfl, fun j hj => absurd hj List.not_mem_nil, rfl⟩
  | cons m d =>
    have hm := (hd.pos m List.mem_cons_self).1
    obtain ⟨h1, h2, h3, _⟩ := setSnapshot_frame (init a) m
    have h0 : max (init a).snap.index m.index = m.index := by show max 0 m.index = m.index; omega
    rw [h0] at h2 h3
    refine ⟨h1, h2, ?_, ?_⟩
    · intro j hj
      rcases h3 j hj with hj | hj
      · exact absurd hj List.not_mem_nil
      · exact hj
    · show ((init a).setSnapshot m).mem = []
      unfold State.setSnapshot State.truncatePrefix State.resetLog
      dsimp only
      repeat' split
      all_goals rfl

theorem boot_inv {d : List Id} {a : Sto α} {y : List (List Id × Sto α)} (h : Left d a) (hy : ∀ p ∈ y, Left p.1 p.2) :
    WInv (World.boot d a y) := by
  obtain ⟨h1, h2, h3, _⟩ := bootMgr_frame (a := a) h.dirs
  refine ⟨?_, Int.le_of_eq h2, h3, ?_⟩
  · show Left d (bootMgr d a).store
    rw [h1]; exact h
  · intro p hp
    rcases List.mem_cons.mp hp with rfl | hp
    · exact h
    · exact hy p hp

theorem Life.run {a : Sto α} {ev dn} {w : World α} (h : Life a ev dn w) : Run a w.mgr ev dn := by
  induction h with
  | boot d hd hp hs hc r => exact r
  | log h s' op r ih => exact r
  | publish h m hm ht ih => exact ih
  | remove h rest hs ih => exact ih
  | record h m hm r ih => exact r
  | clearBuffered h r ih => exact r
  | sync h n k l ih => exact ih
  | crash h x y d hh r ih => exact r

theorem put_inv {a : Sto α} {ev dn} {w : World α} {s' : LogMgr.State α} (r : Run a w.mgr ev dn) (h : WInv w)
    (hf : Frame (top w.dirs) w.mgr s') : WInv (w.put s') := by
  obtain ⟨hd, hc⟩ := frame_store r h.now.disk h.jobs h.now.cover _ hf
  have hn : Left w.dirs s'.store := ⟨h.now.dirs, hd, hc⟩
  refine ⟨hn, ?_, ?_, ?_⟩
  · show s'.snap.index ≤ top w.dirs
    rw [hf.snap]; exact h.snap
  · intro j hj
    rcases hf.queue j hj with hj | hj
    · exact h.jobs j hj
    · exact hj
  · intro p hp
    rcases List.mem_cons.mp hp with rfl | hp
    · exact hn
    · exact h.hist p hp

theorem Life.inv {a : Sto α} {ev dn} {w : World α} (h : Life a ev dn w) : WInv w := by
  induction h with
  | boot d hd hp hs hc r => exact boot_inv ⟨⟨hd, hp⟩, hs, hc⟩ (fun p hp => absurd hp List.not_mem_nil)
  | log h s' op r ih => exact put_inv h.run ih (logOp_frame op)
  | clearBuffered h r ih => exact put_inv h.run ih (clearBuffered_frame ih.snap)
  | @publish a ev dn w h m hm ht ih =>
    have hd := ih.now.dirs.cons hm ht
    have hle : top w.dirs ≤ m.index := Int.le_of_lt hm
    have hn : Left (m :: w.dirs) w.mgr.store := ⟨hd, ih.now.disk, by have := ih.now.cover; show _ ≤ m.index + 1; omega⟩
    refine ⟨hn, ?_, ?_, ?_⟩
    · have := ih.snap; show w.mgr.snap.index ≤ m.index; omega
    · intro j hj; exact (ih.jobs j hj).mono hle
    · intro p hp
      rcases List.mem_cons.mp hp with rfl | hp
      · exact hn
      · exact ih.hist p hp
  | @remove a ev dn w h rest hs ih =>
    have ht := remove_top hs
    have hn : Left (w.dirs.take 1 ++ rest) w.mgr.store :=
      ⟨ih.now.dirs.sub (remove_sub hs), ih.now.disk, by rw [ht]; exact ih.now.cover⟩
    refine ⟨hn, ?_, ?_, ?_⟩
    · show _ ≤ top (w.dirs.take 1 ++ rest); rw [ht]; exact ih.snap
    · intro j hj; show JobOk (top (w.dirs.take 1 ++ rest)) j; rw [ht]; exact ih.jobs j hj
    · intro p hp
      rcases List.mem_cons.mp hp with rfl | hp
      · exact hn
      · exact ih.hist p hp
  | @record a ev dn ev' dn' w h m hm r ih =>
    obtain ⟨h1, h2, h3, _⟩ := setSnapshot_frame w.mgr m
    have hmax : max w.mgr.snap.index m.index ≤ top w.dirs := by have := ih.snap; omega
    have hn : Left w.dirs (w.mgr.setSnapshot m).store := by rw [h1]; exact ih.now
    refine ⟨hn, ?_, ?_, ?_⟩
    · show (w.mgr.setSnapshot m).snap.index ≤ top w.dirs; rw [h2]; exact hmax
    · intro j hj
      rcases h3 j hj with hj | hj
      · exact ih.jobs j hj
      · exact hj.mono hmax
    · intro p hp
      rcases List.mem_cons.mp hp with rfl | hp
      · exact hn
      · exact ih.hist p hp
  | sync h n k l ih => exact ⟨ih.now, ih.snap, ih.jobs, fun p hp => ih.hist p (List.mem_of_mem_take hp)⟩
  | crash h x y d hh r ih =>
    exact boot_inv (ih.hist (d, _) (by rw [hh]; exact List.mem_append_right _ List.mem_cons_self))
      (fun p hp => ih.hist p (by rw [hh]; exact List.mem_append_right _ (List.mem_cons_of_mem _ hp)))

/-! ### Two filesystems, snapshots that the node takes itself -/

/-- A node whose snapshots and log are on two filesystems, which may go back to different moments when the power
fails. It only takes snapshots itself, of what its log has; each is published after the directory with the previous
one got to the disk, and log entries are cleared away (clear_bufferred_logs) only when it did. -/
inductive Saves : Sto α → List Id → List (Job α) → World α → Prop where
  | boot {a : Sto α} {ev} (d : List Id) (hd : d.Pairwise (fun x y => y.index < x.index))
      (hp : ∀ m ∈ d, 0 < m.index ∧ 1 ≤ m.term) (hs : DiskOk a) (hc : a.first ≤ top d + 1)
      (r : Run a (bootMgr d a) ev []) : Saves a ev [] (World.boot d a [])
  | log {a ev dn ev' dn' w} (h : Saves a ev dn w) (s' : LogMgr.State α) (op : LogOp w.mgr s') (r : Run a s' ev' dn') :
      Saves a ev' dn' (w.put s')
  | publish {a ev dn w} (h : Saves a ev dn w) (m : Id) (hm : top w.dirs < m.index) (ht : 1 ≤ m.term)
      (hfl : ∀ d ∈ w.dh, top d = top w.dirs) : Saves a ev dn (w.publish m)
  | remove {a ev dn w} (h : Saves a ev dn w) (rest : List Id) (hs : rest.Sublist (w.dirs.drop 1)) :
      Saves a ev dn (w.remove rest)
  | record {a ev dn ev' dn' w} (h : Saves a ev dn w) (m : Id) (hm : m.index = top w.dirs) (ht : 1 ≤ m.term)
      (own : w.mgr.getTerm m.index = m.term) (r : Run a (w.mgr.setSnapshot m) ev' dn') :
      Saves a ev' dn' (w.put (w.mgr.setSnapshot m))
  | clearBuffered {a ev dn ev' dn' w} (h : Saves a ev dn w) (r : Run a w.mgr.clearBuffered ev' dn')
      (hfl : ∀ d ∈ w.dh, top d = top w.dirs) : Saves a ev' dn' (w.put w.mgr.clearBuffered)
  | sync {a ev dn w} (h : Saves a ev dn w) (n k l : Nat) :
      Saves a ev dn { w with hist := w.hist.take (n + 1), dh := w.dh.take (k + 1), sh := w.sh.take (l + 1) }
  | power {a ev dn w} {b : Sto α} {ev'} (h : Saves a ev dn w) (d : List Id) (hd : d ∈ w.dh) (hb : b ∈ w.sh)
      (r : Run b (bootMgr d b) ev' []) : Saves b ev' [] (World.boot d b [])

theorem Saves.run {a : Sto α} {ev dn} {w : World α} (h : Saves a ev dn w) : Run a w.mgr ev dn := by
  induction h with
  | boot d hd hp hs hc r => exact r
  | log h s' op r ih => exact r
  | publish h m hm ht hfl ih => exact ih
  | remove h rest hs ih => exact ih
  | record h m hm ht own r ih => exact r
  | clearBuffered h r hfl ih => exact r
  | sync h n k l ih => exact ih
  | power h d hd hb r ih => exact r

structure SInv (w : World α) : Prop where
  dirs : DirsOk w.dirs
  disk : DiskOk w.mgr.store
  cover : ∀ d ∈ w.dh, w.mgr.store.first ≤ top d + 1
  jobs : ∀ j ∈ w.mgr.queue, ∀ d ∈ w.dh, JobOk (top d) j
  snap : w.mgr.snap.index ≤ top w.dirs
  low : w.mgr.snap.index = top w.dirs ∨ ∀ d ∈ w.dh, w.mgr.snap.index ≤ top d
  below : ∀ d ∈ w.dh, DirsOk d ∧ top d ≤ top w.dirs
  hist : ∀ d ∈ w.dh, ∀ a ∈ w.sh, Left d a
  some : w.dh ≠ []

theorem sboot_inv {d : List Id} {a : Sto α} (h : Left d a) : SInv (World.boot d a []) := by
  obtain ⟨h1, h2, h3, _⟩ := bootMgr_frame (a := a) h.dirs
  refine ⟨h.dirs, ?_, ?_, ?_, Int.le_of_eq h2, Or.inl h2, ?_, ?_, by simp [World.boot]⟩
  · show DiskOk (bootMgr d a).store; rw [h1]; exact h.disk
  · intro x hx
    have : x = d := by simpa [World.boot] using hx
    show (bootMgr d a).store.first ≤ _
    rw [h1, this]; exact h.cover
  · intro j hj x hx
    have : x = d := by simpa [World.boot] using hx
    rw [this]; exact h3 j hj
  · intro x hx
    have : x = d := by simpa [World.boot] using hx
    rw [this]; exact ⟨h.dirs, Int.le_refl _⟩
  · intro x hx b hb
    have h1 : x = d := by simpa [World.boot] using hx
    have h2 : b = a := by simpa [World.boot] using hb
    rw [h1, h2]; exact h

theorem sput_inv {a : Sto α} {ev dn} {w : World α} {s' : LogMgr.State α} (r : Run a w.mgr ev dn) (h : SInv w)
    (hf : ∀ d ∈ w.dh, Frame (top d) w.mgr s') : SInv (w.put s') := by
  have hd : ∀ d ∈ w.dh, DiskOk s'.store ∧ s'.store.first ≤ top d + 1 := fun d hd =>
    frame_store r h.disk (fun j hj => h.jobs j hj d hd) (h.cover d hd) _ (hf d hd)
  obtain ⟨d0, hd0⟩ := List.exists_mem_of_ne_nil _ h.some
  have hsn : s'.snap = w.mgr.snap := (hf d0 hd0).snap
  refine ⟨h.dirs, (hd d0 hd0).1, fun d hx => (hd d hx).2, ?_, ?_, ?_, h.below, ?_, h.some⟩
  · intro j hj d hx
    rcases (hf d hx).queue j hj with hj | hj
    · exact h.jobs j hj d hx
    · exact hj
  · show s'.snap.index ≤ _; rw [hsn]; exact h.snap
  · show s'.snap.index = _ ∨ ∀ d ∈ w.dh, s'.snap.index ≤ _; rw [hsn]; exact h.low
  · intro d hx b hb
    rcases List.mem_cons.mp hb with rfl | hb
    · exact ⟨(h.below d hx).1, (hd d hx).1, (hd d hx).2⟩
    · exact h.hist d hx b hb

theorem Saves.inv {a : Sto α} {ev dn} {w : World α} (h : Saves a ev dn w) : SInv w := by
  induction h with
  | boot d hd hp hs hc r => exact sboot_inv ⟨⟨hd, hp⟩, hs, hc⟩
  | log h s' op r ih => exact sput_inv h.run ih (fun d hd => logOp_frame op)
  | clearBuffered h r hfl ih =>
    exact sput_inv h.run ih (fun d hd => clearBuffered_frame (by rw [hfl d hd]; exact ih.snap))
  | @publish a ev dn w h m hm ht hfl ih =>
    refine ⟨ih.dirs.cons hm ht, ih.disk, ?_, ?_, ?_, ?_, ?_, ?_, by simp [World.publish]⟩
    · intro d hd
      rcases List.mem_cons.mp hd with rfl | hd
      · obtain ⟨d0, hd0⟩ := List.exists_mem_of_ne_nil _ ih.some
        have := ih.cover d0 hd0
        have := hfl d0 hd0
        show w.mgr.store.first ≤ m.index + 1
        omega
      · exact ih.cover d hd
    · intro j hj d hd
      rcases List.mem_cons.mp hd with rfl | hd
      · obtain ⟨d0, hd0⟩ := List.exists_mem_of_ne_nil _ ih.some
        have h1 := ih.jobs j hj d0 hd0
        have := hfl d0 hd0
        exact h1.mono (by show top d0 ≤ m.index; omega)
      · exact ih.jobs j hj d hd
    · have := ih.snap; show w.mgr.snap.index ≤ m.index; omega
    · right
      intro d hd
      have := ih.snap
      rcases List.mem_cons.mp hd with rfl | hd
      · show w.mgr.snap.index ≤ m.index; omega
      · rw [hfl d hd]; exact ih.snap
    · intro d hd
      rcases List.mem_cons.mp hd with rfl | hd
      · exact ⟨ih.dirs.cons hm ht, Int.le_refl _⟩
      · refine ⟨(ih.below d hd).1, ?_⟩
        have := (ih.below d hd).2
        show top d ≤ m.index
        omega
    · intro d hd b hb
      rcases List.mem_cons.mp hd with rfl | hd
      · obtain ⟨d0, hd0⟩ := List.exists_mem_of_ne_nil _ ih.some
        have h1 := ih.hist d0 hd0 b hb
        have := hfl d0 hd0
        exact ⟨ih.dirs.cons hm ht, h1.disk, by have := h1.cover; show b.first ≤ m.index + 1; omega⟩
      · exact ih.hist d hd b hb
  | @remove a ev dn w h rest hs ih =>
    have ht := remove_top hs
    have hdo := ih.dirs.sub (remove_sub hs)
    obtain ⟨d0, hd0⟩ := List.exists_mem_of_ne_nil _ ih.some
    have hle := (ih.below d0 hd0).2
    refine ⟨hdo, ih.disk, ?_, ?_, ?_, ?_, ?_, ?_, by simp [World.remove]⟩
    · intro d hd
      rcases List.mem_cons.mp hd with rfl | hd
      · rw [ht]; have := ih.cover d0 hd0; show w.mgr.store.first ≤ _; omega
      · exact ih.cover d hd
    · intro j hj d hd
      rcases List.mem_cons.mp hd with rfl | hd
      · rw [ht]; exact (ih.jobs j hj d0 hd0).mono hle
      · exact ih.jobs j hj d hd
    · show _ ≤ top (w.dirs.take 1 ++ rest); rw [ht]; exact ih.snap
    · show _ = top (w.dirs.take 1 ++ rest) ∨ _
      rw [ht]
      rcases ih.low with h1 | h1
      · exact Or.inl h1
      · right
        intro d hd
        rcases List.mem_cons.mp hd with rfl | hd
        · rw [ht]; exact ih.snap
        · exact h1 d hd
    · intro d hd
      show _ ∧ top d ≤ top (w.dirs.take 1 ++ rest)
      rw [ht]
      rcases List.mem_cons.mp hd with rfl | hd
      · exact ⟨hdo, by rw [ht]; exact Int.le_refl _⟩
      · exact ih.below d hd
    · intro d hd b hb
      rcases List.mem_cons.mp hd with rfl | hd
      · have h1 := ih.hist d0 hd0 b hb
        exact ⟨hdo, h1.disk, by rw [ht]; have := h1.cover; omega⟩
      · exact ih.hist d hd b hb
  | @record a ev dn ev' dn' w h m hm ht own r ih =>
    obtain ⟨h1, h2, h3, h4⟩ := setSnapshot_frame w.mgr m
    by_cases hle : m.index ≤ w.mgr.snap.index
    · have hs : w.mgr.setSnapshot m = w.mgr := by unfold State.setSnapshot; rw [if_pos hle]
      rw [hs]
      exact sput_inv h.run ih (fun d hd => ⟨fun j hj => Or.inl hj, rfl, Or.inl rfl⟩)
    · have hlow : ∀ d ∈ w.dh, w.mgr.snap.index ≤ top d := by
        rcases ih.low with h | h
        · omega
        · exact h
      have hq := h4 own (by omega)
      refine ⟨ih.dirs, by rw [show (w.put (w.mgr.setSnapshot m)).mgr.store = w.mgr.store from h1]; exact ih.disk, ?_, ?_, ?_, ?_, ih.below, ?_,
        ih.some⟩
      · intro d hd
        show (w.mgr.setSnapshot m).store.first ≤ _
        rw [h1]; exact ih.cover d hd
      · intro j hj d hd
        rcases hq j hj with hj | hj
        · exact ih.jobs j hj d hd
        · exact hj.mono (hlow d hd)
      · show (w.mgr.setSnapshot m).snap.index ≤ _; rw [h2]; have := ih.snap; show _ ≤ top w.dirs; omega
      · show (w.mgr.setSnapshot m).snap.index = top w.dirs ∨ ∀ d ∈ w.dh, (w.mgr.setSnapshot m).snap.index ≤ top d
        left; rw [h2]; have := ih.snap; omega
      · intro d hd b hb
        rcases List.mem_cons.mp hb with rfl | hb
        · rw [h1]; exact ⟨(ih.below d hd).1, ih.disk, ih.cover d hd⟩
        · exact ih.hist d hd b hb
  | @sync a ev dn w h n k l ih =>
    have hs : ∀ d ∈ w.dh.take (k + 1), d ∈ w.dh := fun d hd => List.mem_of_mem_take hd
    refine ⟨ih.dirs, ih.disk, fun d hd => ih.cover d (hs d hd), fun j hj d hd => ih.jobs j hj d (hs d hd), ih.snap, ?_,
      fun d hd => ih.below d (hs d hd), fun d hd b hb => ih.hist d (hs d hd) b (List.mem_of_mem_take hb), ?_⟩
    · rcases ih.low with h | h
      · exact Or.inl h
      · exact Or.inr fun d hd => h d (hs d hd)
    · intro h0
      have : w.dh = [] := by
        cases hd : w.dh with
        | nil => rfl
        | cons x y => rw [show (w.dh.take (k + 1)) = x :: y.take k by rw [hd]; rfl] at h0; simp at h0
      exact ih.some this
  | power h d hd hb r ih => exact sboot_inv (ih.hist d hd _ hb)

end Braft.SnapPower
