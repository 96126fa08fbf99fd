import Verif.Log.ManagerRun
/-
What last_log_id(true) answers.
-/
set_option linter.unusedVariables false
set_option linter.unusedSimpArgs false

namespace Braft.LogMgr
open Braft.MemLog (Ent Consec)

variable {α : Type}

/-- The disk thread's `last_id` after the jobs, if it is `l` before. -/
def endId (l : Id) : List (Job α) → Id
  | [] => l
  | .append es _ :: q => endId (match es.getLast? with | some e => entId e | none => l) q
  | .truncSuffix k t :: q => endId ⟨k, t⟩ q
  | .truncPrefix _ :: q => endId l q
  | .reset _ :: q => endId l q
  | .lastId _ _ :: q => endId l q

theorem endId_append (l : Id) (x y : List (Job α)) : endId l (x ++ y) = endId (endId l x) y := by
  induction x generalizing l with
  | nil => rfl
  | cons j x ih => cases j <;> simp only [List.cons_append, endId] <;> exact ih _

/-- `last_id`, or what the next round starts with. -/
def State.cur (s : State α) : Id := match s.round with | some l => l | none => s.disk

structure LastInv (s : State α) (L : List (Ent α)) : Prop where
  asks : ∀ x c w y, s.queue = x ++ .lastId c w :: y → endId s.cur x = w
  tail : ∀ e, L.getLast? = some e → endId s.cur s.queue = entId e
  adj : ∀ x k t y, s.queue = x ++ .truncSuffix k t :: y → ∃ es c z, y = .append es c :: z ∧ es ≠ []
  head : ∀ l, s.round = some l → l.lt s.disk = true → ∃ es c z, s.queue = .append es c :: z ∧ es ≠ []

theorem split_snoc {β : Type} {q x y : List β} {j b : β} (h : q ++ [j] = x ++ b :: y) :
    (y = [] ∧ q = x ∧ j = b) ∨ ∃ y', y = y' ++ [j] ∧ q = x ++ b :: y' := by
  rcases List.eq_nil_or_concat y with rfl | ⟨y', z, rfl⟩
  · left
    have := List.append_inj' h rfl
    exact ⟨rfl, this.1, by simpa using this.2⟩
  · right
    rw [List.concat_eq_append] at h ⊢
    have h' : q ++ [j] = (x ++ b :: y') ++ [z] := by rw [h]; simp
    have := List.append_inj' h' rfl
    have hz : j = z := by simpa using this.2
    exact ⟨y', by rw [hz], this.1⟩

theorem LastInv.push {s s' : State α} {L L'} (h : LastInv s L) {j : Job α} (hq : s'.queue = s.queue ++ [j])
    (hd : s'.disk = s.disk) (hr : s'.round = s.round) (hj : ∀ k t, j ≠ .truncSuffix k t)
    (hw : ∀ c w, j = .lastId c w → endId s.cur s.queue = w)
    (ht : ∀ e, L'.getLast? = some e → endId s.cur (s.queue ++ [j]) = entId e) : LastInv s' L' := by
  have hcur : s'.cur = s.cur := by unfold State.cur; rw [hr, hd]
  refine ⟨?_, ?_, ?_, ?_⟩
  · intro x c w y hs
    rw [hq] at hs
    rw [hcur]
    rcases split_snoc hs with ⟨_, h2, h3⟩ | ⟨y', _, h2⟩
    · rw [← h2]; exact hw c w h3
    · exact h.asks x c w y' h2
  · rw [hcur, hq]; exact ht
  · intro x k t y hs
    rw [hq] at hs
    rcases split_snoc hs with ⟨_, h2, h3⟩ | ⟨y', h1, h2⟩
    · exact absurd h3 (hj k t)
    · obtain ⟨es, c, z, h3, h4⟩ := h.adj x k t y' h2
      exact ⟨es, c, z ++ [j], by rw [h1, h3]; rfl, h4⟩
  · intro l hl hlt
    rw [hr] at hl; rw [hd] at hlt
    obtain ⟨es, c, z, h3, h4⟩ := h.head l hl hlt
    exact ⟨es, c, z ++ [j], by rw [hq, h3]; rfl, h4⟩

/-- A truncation and the append after it. -/
theorem LastInv.pushPair {s s' : State α} {L L'} (h : LastInv s L) {k t : Int} {es : List (Ent α)} {c : Nat}
    (hq : s'.queue = s.queue ++ [.truncSuffix k t] ++ [.append es c]) (hne : es ≠ [])
    (hd : s'.disk = s.disk) (hr : s'.round = s.round)
    (ht : ∀ e, L'.getLast? = some e → es.getLast? = some e) : LastInv s' L' := by
  have hcur : s'.cur = s.cur := by unfold State.cur; rw [hr, hd]
  refine ⟨?_, ?_, ?_, ?_⟩
  · intro x d w y hs
    rw [hq] at hs
    rw [hcur]
    rcases split_snoc hs with ⟨_, h2, h3⟩ | ⟨y', _, h2⟩
    · simp at h3
    · rcases split_snoc h2 with ⟨_, h2, h3⟩ | ⟨y'', _, h2⟩
      · simp at h3
      · exact h.asks x d w y'' h2
  · intro e he
    rw [hcur, hq, endId_append, endId_append]
    simp only [endId]
    rw [ht e he]
  · intro x k' t' y hs
    rw [hq] at hs
    rcases split_snoc hs with ⟨_, h2, h3⟩ | ⟨y', h1, h2⟩
    · simp at h3
    · rcases split_snoc h2 with ⟨h4, h2, h3⟩ | ⟨y'', h4, h2⟩
      · exact ⟨es, c, [], by rw [h1, h4]; rfl, hne⟩
      · obtain ⟨es', c', z, h5, h6⟩ := h.adj x k' t' y'' h2
        exact ⟨es', c', z ++ [.truncSuffix k t] ++ [.append es c], by rw [h1, h4, h5]; simp, h6⟩
  · intro l hl hlt
    rw [hr] at hl; rw [hd] at hlt
    obtain ⟨es', c', z, h3, h4⟩ := h.head l hl hlt
    exact ⟨es', c', z ++ [.truncSuffix k t] ++ [.append es c], by rw [hq, h3]; simp, h4⟩

theorem LastInv.pop {s s' : State α} {L} (h : LastInv s L) {js rest : List (Job α)} (hq : s.queue = js ++ rest)
    (hq' : s'.queue = rest) (hc : s'.cur = endId s.cur js)
    (hh : ∀ l, s'.round = some l → l.lt s'.disk = true → ∃ es c z, rest = .append es c :: z ∧ es ≠ []) : LastInv s' L := by
  refine ⟨?_, ?_, ?_, ?_⟩
  · intro x c w y hs
    rw [hq'] at hs
    rw [hc, ← endId_append]
    exact h.asks (js ++ x) c w y (by rw [hq, hs]; simp)
  · intro e he
    rw [hc, hq', ← endId_append, ← hq]
    exact h.tail e he
  · intro x k t y hs
    rw [hq'] at hs
    exact h.adj (js ++ x) k t y (by rw [hq, hs]; simp)
  · rw [hq']; exact hh

theorem LastInv.congr {s s' : State α} {L L'} (h : LastInv s L) (hq : s'.queue = s.queue) (hd : s'.disk = s.disk)
    (hr : s'.round = s.round) (ht : ∀ e, L'.getLast? = some e → L.getLast? = some e) : LastInv s' L' := by
  have hcur : s'.cur = s.cur := by unfold State.cur; rw [hr, hd]
  refine ⟨?_, ?_, ?_, ?_⟩
  · rw [hq, hcur]; exact h.asks
  · rw [hq, hcur]; exact fun e he => h.tail e (ht e he)
  · rw [hq]; exact h.adj
  · rw [hq, hd, hr]; exact h.head

theorem Core.unique {s : State α} {L L'} (h : Core s L) (h' : Core s L') : L = L' := by
  have := h.pend.symm.trans h'.pend
  simpa using this

theorem getLast_drop {L : List (Ent α)} {n : Nat} {e : Ent α} (h : (L.drop n).getLast? = some e) : L.getLast? = some e := by
  rw [List.getLast?_drop] at h
  split at h
  · simp at h
  · exact h

theorem endId_appends {js : List (Job α)} (hj : AllAppends js) (l : Id) :
    endId l js = lastOf l (jobEnts js) (jobEnts js).length := by
  induction js generalizing l with
  | nil => simp [endId, jobEnts, lastOf]
  | cons j js ih =>
    obtain ⟨es, c, rfl, hne⟩ := hj j (List.mem_cons_self ..)
    have hj' : AllAppends js := fun k hk => hj k (List.mem_cons_of_mem _ hk)
    simp only [endId, jobEnts]
    rw [ih hj']
    unfold lastOf
    rw [List.take_of_length_le (Nat.le_refl _), List.take_of_length_le (Nat.le_refl _), List.getLast?_append]
    cases hl : (jobEnts js).getLast? with
    | some e => rfl
    | none => cases es.getLast? <;> rfl

/-- Without a snapshot the log begins at 1. -/
theorem Run.first1 {a : Sto α} {s : State α} {ev : List Id} {dn : List (Job α)} (r : Run a s ev dn)
    (h0 : s.snap.index = 0) : s.first = 1 := by
  have hsnap : ∀ (s : State α) (m : Id), 0 < m.index ∨ m.index ≤ s.snap.index → (s.setSnapshot m).snap.index = 0 →
      s.setSnapshot m = s ∧ s.snap.index = 0 ∨ m.index = 0 := by
    intro s m hm h
    rcases setSnapshot_ids s m with ⟨h1, _⟩ | ⟨hlt, h1, _⟩
    · rw [h1] at h
      left
      refine ⟨?_, h⟩
      by_cases hle : m.index ≤ s.snap.index
      · unfold State.setSnapshot; rw [if_pos hle]
      · exfalso
        unfold State.setSnapshot State.truncatePrefix State.resetLog at h1
        rw [if_neg hle] at h1
        dsimp only at h1
        have : m = s.snap := by
          split at h1
          · exact h1
          · split at h1
            · split at h1 <;> exact h1
            · exact h1
        rw [this] at hle
        omega
    · rw [h1] at h; exact Or.inr h
  induction r with
  | start h ht h1 => exact h1
  | startSnap h ht m hm hok =>
    rcases hsnap _ m (Or.inl hm) h0 with ⟨h1, h2⟩ | h1
    · exfalso
      have : (init a).setSnapshot m = init a := h1
      rcases setSnapshot_ids (init a) m with ⟨h3, _⟩ | ⟨_, h3, _⟩
      · unfold State.setSnapshot State.truncatePrefix State.resetLog at h3
        rw [if_neg (by show ¬ m.index ≤ 0; omega)] at h3
        dsimp only at h3
        have hms : m = (init a).snap := by
          split at h3
          · exact h3
          · split at h3
            · split at h3 <;> exact h3
            · exact h3
        rw [hms] at hm
        have hm' : (0 : Int) < 0 := hm
        omega
      · rw [h3] at h0; omega
    · omega
  | @leader s ev dn r vs cid ht ih =>
    have : (s.appendLeader vs cid).snap = s.snap ∧ (s.appendLeader vs cid).first = s.first := by
      unfold State.appendLeader; split <;> exact ⟨rfl, rfl⟩
    rw [this.1] at h0; rw [this.2]; exact ih h0
  | @append s ev dn r es cid f hc hne ht hnc ih =>
    have hf : (s.append es cid).first = s.first := by
      cases he : s.err with
      | true => unfold State.append; rw [if_pos he]
      | false =>
        rcases append_cases s es cid he with ⟨_, x, hx⟩ | ⟨s1, hs1, b, hb⟩
        · rw [hx]
        · rw [hb]
          show s1.first = _
          rcases hs1 with rfl | ⟨k, rfl⟩
          · rfl
          · unfold State.truncateSuffix; split <;> rfl
    rw [(append_ids s es cid).1] at h0
    rw [hf]; exact ih h0
  | @appendNone s ev dn r cid ih =>
    have : (s.append [] cid).first = s.first ∧ (s.append [] cid).snap = s.snap := by
      unfold State.append; split <;> exact ⟨rfl, rfl⟩
    rw [this.2] at h0; rw [this.1]; exact ih h0
  | lastId r cid hne ih => exact ih h0
  | @setSnapshot s ev dn r m hok ih =>
    by_cases hle : m.index ≤ s.snap.index
    · have : s.setSnapshot m = s := by unfold State.setSnapshot; rw [if_pos hle]
      rw [this] at h0 ⊢; exact ih h0
    · exfalso
      rcases setSnapshot_ids s m with ⟨h3, _⟩ | ⟨_, h3, _⟩
      · unfold State.setSnapshot State.truncatePrefix State.resetLog at h3
        rw [if_neg hle] at h3
        dsimp only at h3
        have hms : m = s.snap := by
          split at h3
          · exact h3
          · split at h3
            · split at h3 <;> exact h3
            · exact h3
        rw [hms] at hle
        omega
      · rw [h3] at h0
        -- the snapshot index is never negative
        have hb := (hok (by omega)).base
        have ht : ∀ {s : State α} {ev dn}, Run a s ev dn → 0 ≤ s.snap.index := by
          intro s ev dn r
          induction r with
          | start h ht h1 => exact Int.le_refl 0
          | @startSnap h ht m hm hok =>
            rcases setSnapshot_ids (init a) m with ⟨h3, _⟩ | ⟨_, h3, _⟩
            · rw [h3]; exact Int.le_refl 0
            · rw [h3]; omega
          | @leader s ev dn r vs cid ht ih =>
            have : (s.appendLeader vs cid).snap = s.snap := by unfold State.appendLeader; split <;> rfl
            rw [this]; exact ih
          | @append s ev dn r es cid f hc hne ht hnc ih => rw [(append_ids s es cid).1]; exact ih
          | @appendNone s ev dn r cid ih => rw [(append_ids s [] cid).1]; exact ih
          | lastId r cid hne ih => exact ih
          | @setSnapshot s ev dn r m hok ih =>
            rcases setSnapshot_ids s m with ⟨h3, _⟩ | ⟨hlt, h3, _⟩
            · rw [h3]; exact ih
            · rw [h3]; omega
          | @clearBuffered s ev dn r ih => unfold State.clearBuffered; split <;> exact ih
          | @setApplied s ev dn r i h1 h2 ih =>
            have : (s.setApplied i).snap = s.snap := by unfold State.setApplied; split <;> rfl
            rw [this]; exact ih
          | @clear s ev dn r c hc h ih =>
            have : (s.clear c).snap = s.snap := by
              unfold State.clear
              cases s.mem with
              | nil => rfl
              | cons e es => dsimp only; split <;> rfl
            rw [this]; exact ih
          | roundStart r h ih => exact ih
          | @roundEnd s ev dn r l h ih =>
            have : (s.roundEnd l).snap = s.snap := by
              show (s.setDisk l).snap = _
              unfold State.setDisk; split <;> rfl
            rw [this]; exact ih
          | @flush s ev dn r js rest l n late hq hj h hn ih =>
            have : (s.flush js rest l n late).snap = s.snap := by
              unfold State.flush; dsimp only; split <;> rfl
            rw [this]; exact ih
          | @execOk s ev dn r j rest l hq hj h ih =>
            have : (s.execOk j rest l).snap = s.snap := by cases j <;> rfl
            rw [this]; exact ih
          | execFails r j rest b hq h ih => exact ih
          | error r ih => exact ih
        have := ht r
        omega
  | @clearBuffered s ev dn r ih =>
    unfold State.clearBuffered at h0 ⊢
    split at h0
    · rename_i hne; exact absurd h0 hne
    · rename_i hne; rw [if_neg hne]; exact ih h0
  | @setApplied s ev dn r i h1 h2 ih =>
    have : (s.setApplied i).snap = s.snap ∧ (s.setApplied i).first = s.first := by
      unfold State.setApplied; split <;> exact ⟨rfl, rfl⟩
    rw [this.1] at h0; rw [this.2]; exact ih h0
  | @clear s ev dn r c hc h ih =>
    have : (s.clear c).snap = s.snap ∧ (s.clear c).first = s.first := by
      unfold State.clear
      cases s.mem with
      | nil => exact ⟨rfl, rfl⟩
      | cons e es => dsimp only; split <;> exact ⟨rfl, rfl⟩
    rw [this.1] at h0; rw [this.2]; exact ih h0
  | roundStart r h ih => exact ih h0
  | @roundEnd s ev dn r l h ih =>
    have : (s.roundEnd l).snap = s.snap ∧ (s.roundEnd l).first = s.first := by
      show (s.setDisk l).snap = _ ∧ (s.setDisk l).first = _
      unfold State.setDisk; split <;> exact ⟨rfl, rfl⟩
    rw [this.1] at h0; rw [this.2]; exact ih h0
  | @flush s ev dn r js rest l n late hq hj h hn ih =>
    have : (s.flush js rest l n late).snap = s.snap ∧ (s.flush js rest l n late).first = s.first := by
      unfold State.flush; dsimp only; split <;> exact ⟨rfl, rfl⟩
    rw [this.1] at h0; rw [this.2]; exact ih h0
  | @execOk s ev dn r j rest l hq hj h ih =>
    have : (s.execOk j rest l).snap = s.snap ∧ (s.execOk j rest l).first = s.first := by cases j <;> exact ⟨rfl, rfl⟩
    rw [this.1] at h0; rw [this.2]; exact ih h0
  | execFails r j rest b hq h ih => exact ih h0
  | error r ih => exact ih h0

theorem SnapRes.last {s : State α} {L L'} {m : Id} (h : SnapRes s L m L') : ∀ e, L'.getLast? = some e → L.getLast? = some e := by
  intro e he
  cases h with
  | beyond _ => exact getLast_drop he
  | same _ _ => exact getLast_drop he
  | sameFirst _ _ => exact he
  | differs _ _ => simp at he

theorem LastInv.snap {s : State α} {L L'} (h : LastInv s L) (m : Id)
    (ht : ∀ e, L'.getLast? = some e → L.getLast? = some e) : LastInv (s.setSnapshot m) L' := by
  unfold State.setSnapshot
  by_cases h1 : m.index ≤ s.snap.index
  · rw [if_pos h1]; exact h.congr rfl rfl rfl ht
  · rw [if_neg h1]
    dsimp only
    by_cases h2 : s.getTerm m.index = 0
    · rw [if_pos h2]
      exact h.push rfl rfl rfl (by intro k t; simp) (by intro c w hw; simp at hw)
        (fun e he => by rw [endId_append]; exact h.tail e (ht e he))
    · rw [if_neg h2]
      by_cases h3 : s.getTerm m.index = m.term
      · rw [if_pos h3]
        by_cases h4 : s.snap.index > 0
        · rw [if_pos h4]
          exact h.push rfl rfl rfl (by intro k t; simp) (by intro c w hw; simp at hw)
            (fun e he => by rw [endId_append]; exact h.tail e (ht e he))
        · rw [if_neg h4]
          exact h.congr rfl rfl rfl ht
      · rw [if_neg h3]
        exact h.push rfl rfl rfl (by intro k t; simp) (by intro c w hw; simp at hw)
          (fun e he => by rw [endId_append]; exact h.tail e (ht e he))

theorem getLast_append_cons (A : List (Ent α)) (x : Ent α) (xs : List (Ent α)) (e : Ent α)
    (h : (A ++ x :: xs).getLast? = some e) : (x :: xs).getLast? = some e := by
  rw [List.getLast?_append] at h
  cases hl : (x :: xs).getLast? with
  | none => simp at hl
  | some y => rw [hl] at h; exact h

theorem Run.last {a : Sto α} {s : State α} {ev : List Id} {dn : List (Job α)} (r : Run a s ev dn)
    (he : s.err = false) (hinc : Increasing ev) : ∀ L, Inv s L → LastInv s L := by
  induction r with
  | start h ht h1 =>
    intro L hL
    have hu := hL.toCore.unique (init_inv h ht h1).toCore
    subst hu
    refine ⟨by intro x c w y hs; simp [init] at hs, ?_, by intro x k t y hs; simp [init] at hs, by intro l hl; simp [init] at hl⟩
    intro e hlast
    show (⟨a.last, a.termAt a.last⟩ : Id) = entId e
    have hm := List.mem_of_getLast? hlast
    rw [List.getLast?_eq_getElem?] at hlast
    have hi := MemLog.consec_get _ _ h.idx _ _ hlast
    have hp := consec_mem h.idx hm
    have hl : e.index = a.last := by unfold Sto.last; omega
    have : a.at a.last = some e := (Sto.at_iff h.idx).mpr ⟨hm, hl⟩
    unfold Sto.termAt entId
    rw [this, hl]
  | startSnap h ht m hm hok =>
    intro L hL
    have hi := init_inv0 h ht
    obtain ⟨L', h', hres⟩ := hi.setSnapshot m hm hok
    have hu := hL.toCore.unique h'.toCore
    subst hu
    have h0 : LastInv (init a) a.ents := by
      refine ⟨by intro x c w y hs; simp [init] at hs, ?_, by intro x k t y hs; simp [init] at hs, by intro l hl; simp [init] at hl⟩
      intro e hlast
      show (⟨a.last, a.termAt a.last⟩ : Id) = entId e
      have hm := List.mem_of_getLast? hlast
      rw [List.getLast?_eq_getElem?] at hlast
      have hi := MemLog.consec_get _ _ h.idx _ _ hlast
      have hp := consec_mem h.idx hm
      have hl : e.index = a.last := by unfold Sto.last; omega
      have : a.at a.last = some e := (Sto.at_iff h.idx).mpr ⟨hm, hl⟩
      unfold Sto.termAt entId
      rw [this, hl]
    exact h0.snap m hres.last
  | @leader s ev dn r vs cid ht ih =>
    intro L hL
    have hes : s.err = false := by
      cases h : s.err with
      | false => rfl
      | true => unfold State.appendLeader at he; rw [if_pos h] at he; simp [h] at he
    obtain ⟨L0, hg⟩ := r.good hes
    have hl := ih hes hinc.left L0 hg.inv
    have hu := hL.toCore.unique (hg.inv.appendLeader hes vs cid ht).toCore
    subst hu
    have hst : s.appendLeader vs cid = ({ s with last := s.last + vs.length }).enqueue (number (s.last + 1) vs) cid := by
      unfold State.appendLeader; rw [if_neg (by rw [hes]; simp)]
    rw [hst]
    refine hl.push (j := .append (number (s.last + 1) vs) cid) rfl rfl rfl (by intro k t; simp) (by intro c w hw; simp at hw) ?_
    intro e hlast
    rw [endId_append]
    simp only [endId]
    cases hn : number (s.last + 1) vs with
    | nil =>
      rw [hn, List.append_nil] at hlast
      exact hl.tail e hlast
    | cons x xs =>
      rw [hn] at hlast
      rw [getLast_append_cons _ _ _ _ hlast]
  | @append s ev dn r es cid f hc hne ht hnc ih =>
    intro L hL
    have hes : s.err = false := by rw [append_err] at he; exact he
    obtain ⟨L0, hg⟩ := r.good hes
    have hl := ih hes hinc.left L0 hg.inv
    obtain ⟨L', h1, hres⟩ := hg.inv.append hes es cid hc hne ht hnc
    have hu := hL.toCore.unique h1.toCore
    subst hu
    cases hres with
    | gap f hf' h hs hn => rw [hs]; exact hl.congr rfl rfl rfl (fun e h => h)
    | known b hb h hs hn => rw [hs]; exact hl.congr rfl rfl rfl (fun e h => h)
    | allMatch hm hs hn =>
      rw [hs]
      exact hl.push (j := .append [] cid) rfl rfl rfl (by intro k t; simp) (by intro c w hw; simp at hw)
        (fun e he => by rw [endId_append]; exact hl.tail e he)
    | from_ p x rest hp hm hcn hi1 hi2 b hs hn =>
      rw [hs]
      by_cases hle : x.index ≤ s.last
      · rw [if_pos hle]
        have htr : s.truncateSuffix (x.index - 1) =
            { s with mem := MemLog.popBack (x.index - 1) s.mem, last := x.index - 1,
                     queue := s.queue ++ [.truncSuffix (x.index - 1)
                       (State.getTerm { s with mem := MemLog.popBack (x.index - 1) s.mem, last := x.index - 1 } (x.index - 1))] } := by
          unfold State.truncateSuffix; rw [if_neg (by omega)]
        rw [htr]
        exact hl.pushPair rfl (by simp) rfl rfl (fun e hlast => getLast_append_cons _ _ _ _ hlast)
      · rw [if_neg hle]
        refine hl.push (j := .append (x :: rest) cid) rfl rfl rfl (by intro k t; simp) (by intro c w hw; simp at hw) ?_
        intro e hlast
        rw [endId_append]
        simp only [endId]
        rw [getLast_append_cons _ _ _ _ hlast]
  | @appendNone s ev dn r cid ih =>
    intro L hL
    have hes : s.err = false := by rw [append_err] at he; exact he
    obtain ⟨L0, hg⟩ := r.good hes
    have hl := ih hes hinc L0 hg.inv
    have hst : s.append [] cid = s.enqueue [] cid := by
      unfold State.append; rw [if_neg (by rw [hes]; simp)]; rfl
    rw [hst] at hL ⊢
    have hcore := hg.inv.toCore.enqueue (es := []) cid trivial (by simp)
    rw [List.append_nil] at hcore
    have hcore' : Core (s.enqueue [] cid) L0 :=
      hcore.congr rfl (by show s.last = s.last + ((0 : Nat) : Int); omega) rfl rfl rfl
    have hu := hL.toCore.unique hcore'
    subst hu
    exact hl.push (j := .append [] cid) rfl rfl rfl (by intro k t; simp) (by intro c w hw; simp at hw)
        (fun e he => by rw [endId_append]; exact hl.tail e he)
  | @lastId s ev dn r cid hne ih =>
    intro L hL
    have hes : s.err = false := he
    obtain ⟨L0, hg⟩ := r.good hes
    have hl := ih hes hinc L0 hg.inv
    have hI := hg.inv
    have hp2 : (s.askLastId cid).store.runAll (s.askLastId cid).queue = some ⟨s.first, L0⟩ := by
      show s.store.runAll (s.queue ++ [.lastId cid s.lastLogId]) = _
      rw [runAll_snoc _ _ _ _ hI.pend]; rfl
    have hu : L = L0 := by
      have h1 := hL.pend
      rw [hp2] at h1
      have h2 : (⟨s.first, L0⟩ : Sto α) = ⟨s.first, L⟩ := Option.some.inj h1
      cases h2; rfl
    subst hu
    -- the log is not empty
    have hlen := hI.len
    have hpos := hI.pos
    have hnil : L ≠ [] := by
      intro h0
      rw [h0] at hlen
      simp only [List.length_nil] at hlen
      rcases hI.snapPos with hs | ⟨hs, _⟩
      · have := r.first1 (by rw [hs])
        rw [hs] at hne
        have hne' : s.last ≠ 0 := hne
        omega
      · have h1 := hI.snapFirst hs
        have h2 := hI.snapLast
        omega
    have hlp : 0 < L.length := List.length_pos_iff.mpr hnil
    obtain ⟨e, hlast⟩ : ∃ e, L.getLast? = some e := ⟨_, List.getLast?_eq_some_getLast hnil⟩
    have hw : endId s.cur s.queue = s.lastLogId := by
      rw [hl.tail e hlast]
      unfold State.lastLogId
      rw [if_pos (by omega)]
      have hm := List.mem_of_getLast? hlast
      rw [List.getLast?_eq_getElem?] at hlast
      have hi := MemLog.consec_get _ _ hI.idx _ _ hlast
      have hidx : e.index = s.last := by omega
      have hat : (logOf s L).at s.last = some e := (Sto.at_iff (a := logOf s L) hI.idx).mpr ⟨hm, hidx⟩
      rw [hI.toInv0.getTerm, hat]
      unfold entId
      rw [hidx]
    refine hl.push (j := .lastId cid s.lastLogId) rfl rfl rfl (by intro k t; simp) ?_ ?_
    · intro c w hcw
      cases hcw
      exact hw
    · intro e he
      rw [endId_append]; exact hl.tail e he
  | @setSnapshot s ev dn r m hok ih =>
    intro L hL
    rw [setSnapshot_err] at he
    obtain ⟨L0, hg⟩ := r.good he
    have hl := ih he hinc.left L0 hg.inv
    by_cases hm : m.index ≤ s.snap.index
    · have hst : s.setSnapshot m = s := by unfold State.setSnapshot; rw [if_pos hm]
      rw [hst] at hL ⊢
      have hu := hL.toCore.unique hg.inv.toCore
      subst hu
      exact hl
    · obtain ⟨L', h', hres⟩ := hg.inv.toInv0.setSnapshot m (by omega) (hok (by omega))
      have hu := hL.toCore.unique h'.toCore
      subst hu
      exact hl.snap m hres.last
  | @clearBuffered s ev dn r ih =>
    intro L hL
    have hes : s.err = false := by
      unfold State.clearBuffered at he
      split at he <;> exact he
    obtain ⟨L0, hg⟩ := r.good hes
    have hl := ih hes hinc L0 hg.inv
    have hu := hL.toCore.unique hg.inv.clearBuffered.toCore
    subst hu
    have ht : ∀ e, (if s.snap.index = 0 then L0 else L0.drop (s.snap.index + 1 - s.first).toNat).getLast? = some e →
        L0.getLast? = some e := by
      intro e he
      split at he
      · exact he
      · exact getLast_drop he
    generalize (if s.snap.index = 0 then L0 else L0.drop (s.snap.index + 1 - s.first).toNat) = L1 at ht ⊢
    unfold State.clearBuffered
    split
    · exact hl.push (j := .truncPrefix (s.snap.index + 1)) rfl rfl rfl (by intro k t; simp) (by intro c w hw; simp at hw)
        (fun e he => by rw [endId_append]; exact hl.tail e (ht e he))
    · exact hl.congr rfl rfl rfl ht
  | @setApplied s ev dn r i h1 h2 ih =>
    intro L hL
    have hes : s.err = false := by
      unfold State.setApplied at he
      split at he <;> exact he
    obtain ⟨L0, hg⟩ := r.good hes
    have hl := ih hes hinc L0 hg.inv
    have hu := hL.toCore.unique (hg.inv.setApplied i h1 h2).toCore
    subst hu
    unfold State.setApplied
    split
    · exact hl
    · exact hl.congr rfl rfl rfl (fun e h => h)
  | @clear s ev dn r c hc h ih =>
    intro L hL
    have heq : (s.clear c).err = s.err ∧ (s.clear c).queue = s.queue ∧ (s.clear c).disk = s.disk ∧
        (s.clear c).round = s.round := by
      unfold State.clear
      cases s.mem with
      | nil => exact ⟨rfl, rfl, rfl, rfl⟩
      | cons e es => dsimp only; split <;> exact ⟨rfl, rfl, rfl, rfl⟩
    rw [heq.1] at he
    obtain ⟨L0, hg⟩ := r.good he
    have hl := ih he hinc L0 hg.inv
    have hsafe : SafeClear s c := by
      rcases h with h | h
      · exact (hg.fresh h).safe hg.inv.toCore hc
      · exact h
    have hu := hL.toCore.unique (hg.inv.clear c hsafe).toCore
    subst hu
    exact hl.congr heq.2.1 heq.2.2.1 heq.2.2.2 (fun e h => h)
  | @roundStart s ev dn r h ih =>
    intro L hL
    have hes : s.err = false := he
    obtain ⟨L0, hg⟩ := r.good hes
    have hl := ih hes hinc L0 hg.inv
    have hu := hL.toCore.unique (hg.inv.congr (s' := s.roundStart) rfl rfl rfl rfl rfl rfl rfl rfl).toCore
    subst hu
    have hcur : s.roundStart.cur = s.cur := by
      unfold State.cur State.roundStart; rw [h]
    refine ⟨?_, ?_, hl.adj, ?_⟩
    · rw [hcur]; exact hl.asks
    · rw [hcur]; exact hl.tail
    · intro l hl' hlt
      have : some s.disk = some l := hl'
      cases this
      have hlt' : s.disk.lt s.disk = true := hlt
      rw [Id.lt_iff] at hlt'
      omega
  | @roundEnd s ev dn r l h ih =>
    intro L hL
    have hes : s.err = false := by
      have : (s.roundEnd l).err = (s.setDisk l).err := rfl
      rw [this, setDisk_err] at he; exact he
    obtain ⟨L0, hg⟩ := r.good hes
    have hl := ih hes hinc L0 hg.inv
    have hu := hL.toCore.unique ((hg.inv.setDisk l).congr (s' := s.roundEnd l) rfl rfl rfl rfl rfl rfl rfl rfl).toCore
    subst hu
    have hcur0 : s.cur = l := by unfold State.cur; rw [h]
    cases hlt : l.lt s.disk with
    | false =>
      have hst : s.roundEnd l = { s with disk := l, clears := s.clears ++ [l.min s.applied], round := none } := by
        unfold State.roundEnd State.setDisk; rw [hlt]; rfl
      rw [hst]
      have hcur : State.cur { s with disk := l, clears := s.clears ++ [l.min s.applied], round := none } = s.cur := by
        rw [hcur0]; rfl
      refine ⟨?_, ?_, hl.adj, by intro l hl; simp at hl⟩
      · rw [hcur]; exact hl.asks
      · rw [hcur]; exact hl.tail
    | true =>
      have hst : s.roundEnd l = { s with round := none } := by
        unfold State.roundEnd State.setDisk; rw [hlt]; rfl
      rw [hst]
      obtain ⟨es, c, z, hq, hne⟩ := hl.head l h hlt
      have hindep : ∀ d x y, s.queue = x ++ y → (x = [] ∨ endId d x = endId s.cur x) := by
        intro d x y hxy
        cases x with
        | nil => exact Or.inl rfl
        | cons j x =>
          right
          rw [hq] at hxy
          cases hxy
          simp only [endId]
          cases hl' : es.getLast? with
          | some e => rfl
          | none => exact absurd (List.getLast?_eq_none_iff.mp hl') hne
      refine ⟨?_, ?_, hl.adj, by intro l hl; simp at hl⟩
      · intro x c' w y hs
        have hs' : s.queue = x ++ .lastId c' w :: y := hs
        rcases hindep s.disk x _ hs' with h0 | h0
        · rw [h0, hq] at hs'; simp at hs'
        · show endId s.disk x = w
          rw [h0]; exact hl.asks x c' w y hs'
      · intro e hlast
        show endId s.disk s.queue = entId e
        rcases hindep s.disk s.queue [] (by simp) with h0 | h0
        · rw [hq] at h0; simp at h0
        · rw [h0]; exact hl.tail e hlast
  | @flush s ev dn r js rest l n late hq hj h hn ih =>
    intro L hL
    have hes : s.err = false := by
      cases hs : s.err with
      | false => rfl
      | true => simp [State.flush, hs] at he
    obtain ⟨L0, hg⟩ := r.good hes
    have hl := ih hes hinc L0 hg.inv
    have hlate : late = false := by simp [State.flush, hes] at he; exact he.2
    have hn' : n = (jobEnts js).length := by simp [State.flush, hes] at he; exact he.1
    subst hlate hn'
    obtain ⟨h1, h2, h3⟩ := hg.inv.flushOk hes hq hj l
    have hu := hL.toCore.unique h1.toCore
    subst hu
    have hround : (s.flush js rest l (jobEnts js).length false).round = some (lastOf l (jobEnts js) (jobEnts js).length) := by
      simp [State.flush, hes]
    have hcur0 : s.cur = l := by unfold State.cur; rw [h]
    have hdisk : (s.flush js rest l (jobEnts js).length false).disk = s.disk := by simp [State.flush, hes]
    refine hl.pop hq (by simp [State.flush, hes]) ?_ ?_
    · rw [hcur0, endId_appends hj]
      unfold State.cur
      rw [hround]
    · intro l' hl' hlt
      rw [hround] at hl'
      rw [hdisk] at hlt
      cases js with
      | nil =>
        have : l' = l := by simpa [lastOf, jobEnts] using hl'.symm
        subst this
        obtain ⟨es, c, z, hqq, hne⟩ := hl.head l' h hlt
        exact ⟨es, c, z, by rw [← hqq, hq]; rfl, hne⟩
      | cons j js =>
        exfalso
        have hd := (hg.fresh hinc).diskQ
        obtain ⟨es, c, rfl, hne⟩ := hj j (List.mem_cons_self ..)
        have hne' : jobEnts (Job.append es c :: js) ≠ [] := by
          simp [jobEnts, hne]
        obtain ⟨e, hlast⟩ : ∃ e, (jobEnts (Job.append es c :: js)).getLast? = some e := ⟨_, List.getLast?_eq_some_getLast hne'⟩
        have hle : l' = entId e := by
          have h9 := Option.some.inj hl'
          unfold lastOf at h9
          rw [List.take_of_length_le (Nat.le_refl _), hlast] at h9
          exact h9.symm
        have h8 := hd e (by rw [hq, jobEnts_append]; exact List.mem_append_left _ (List.mem_of_getLast? hlast))
        rw [hle] at hlt
        rw [Id.lt_iff] at hlt h8
        omega
  | @execOk s ev dn r j rest l hq hj h ih =>
    intro L hL
    have hes : s.err = false := by
      have : (s.execOk j rest l).err = s.err := by cases j <;> rfl
      rw [this] at he; exact he
    obtain ⟨L0, hg⟩ := r.good hes
    have hl := ih hes hinc L0 hg.inv
    obtain ⟨h1, h2⟩ := hg.inv.execOk hq l
    have hu := hL.toCore.unique h1.toCore
    subst hu
    have hcur0 : s.cur = l := by unfold State.cur; rw [h]
    have hold : (s.execOk j rest l).round = s.round → (s.execOk j rest l).disk = s.disk →
        ∀ l', (s.execOk j rest l).round = some l' → l'.lt (s.execOk j rest l).disk = true →
        ∃ es c z, rest = .append es c :: z ∧ es ≠ [] := by
      intro hr hd l' hl' hlt
      rw [hr] at hl'; rw [hd] at hlt
      obtain ⟨es, c, z, hqq, hne⟩ := hl.head l' hl' hlt
      rw [hq] at hqq
      cases hqq
      exact absurd (hj es c rfl) hne
    refine hl.pop (js := [j]) hq (by cases j <;> rfl) ?_ ?_
    · rw [hcur0]
      cases j with
      | append es c =>
        have := hj es c rfl
        subst this
        show s.cur = _
        rw [hcur0]; rfl
      | truncSuffix k t => rfl
      | truncPrefix k => show s.cur = _; rw [hcur0]; rfl
      | reset k => show s.cur = _; rw [hcur0]; rfl
      | lastId k w => show s.cur = _; rw [hcur0]; rfl
    · cases j with
      | truncSuffix k t =>
        intro _ _ _
        exact hl.adj [] k t rest hq
      | append es c => exact hold rfl rfl
      | truncPrefix k => exact hold rfl rfl
      | reset k => exact hold rfl rfl
      | lastId k w => exact hold rfl rfl
  | execFails r j rest b hq h ih => simp [State.execFails] at he
  | error r ih => simp at he

/-! ### What is on disk when last_log_id(true) is answered -/

/-- When the disk thread comes to a question, the storage ends with the entry it asks for. -/
def AskDisk (s : State α) : Prop :=
  ∀ x c w y, s.queue = x ++ .lastId c w :: y → ∃ b, s.store.runAll x = some b ∧ b.ents.getLast?.map entId = some w

theorem AskDisk.push {s s' : State α} (h : AskDisk s) {j : Job α} (hq : s'.queue = s.queue ++ [j])
    (hs : s'.store = s.store)
    (hj : ∀ c w, j = .lastId c w → ∃ b, s.store.runAll s.queue = some b ∧ b.ents.getLast?.map entId = some w) : AskDisk s' := by
  intro x c w y hx
  rw [hq] at hx
  rw [hs]
  rcases split_snoc hx with ⟨_, h2, h3⟩ | ⟨y', _, h2⟩
  · rw [← h2]; exact hj c w h3
  · exact h x c w y' h2

theorem AskDisk.congr {s s' : State α} (h : AskDisk s) (hq : s'.queue = s.queue) (hs : s'.store = s.store) : AskDisk s' := by
  intro x c w y hx
  rw [hq] at hx
  rw [hs]
  exact h x c w y hx

theorem AskDisk.pop {s s' : State α} (h : AskDisk s) {js rest : List (Job α)} (hq : s.queue = js ++ rest)
    (hq' : s'.queue = rest) (hs : s.store.runAll js = some s'.store) : AskDisk s' := by
  intro x c w y hx
  rw [hq'] at hx
  obtain ⟨b, h1, h2⟩ := h (js ++ x) c w y (by rw [hq, hx, List.append_assoc])
  rw [runAll_append, hs] at h1
  exact ⟨b, h1, h2⟩

theorem AskDisk.setSnapshot {s : State α} (h : AskDisk s) (m : Id) : AskDisk (s.setSnapshot m) := by
  unfold State.setSnapshot State.truncatePrefix State.resetLog
  split
  · exact h
  · dsimp only
    split
    · exact h.push (j := .truncPrefix (m.index + 1)) rfl rfl (by intro c w hw; cases hw)
    · split
      · split
        · exact h.push (j := .truncPrefix (s.snap.index + 1)) rfl rfl (by intro c w hw; cases hw)
        · exact h.congr rfl rfl
      · exact h.push (j := .reset (m.index + 1)) rfl rfl (by intro c w hw; cases hw)

theorem AskDisk.truncateSuffix {s : State α} (h : AskDisk s) (k : Int) : AskDisk (s.truncateSuffix k) := by
  unfold State.truncateSuffix
  split
  · exact h
  · exact h.push (j := .truncSuffix k _) rfl rfl (by intro c w hw; cases hw)

theorem Run.askDisk {a : Sto α} {s : State α} {ev : List Id} {dn : List (Job α)} (r : Run a s ev dn)
    (he : s.err = false) : AskDisk s := by
  have h0 : ∀ a : Sto α, AskDisk (init a) := by intro a x c w y hx; simp [init] at hx
  induction r with
  | start h ht h1 => exact h0 a
  | startSnap h ht m hm hok => exact (h0 a).setSnapshot m
  | @leader s ev dn r vs cid ht ih =>
    have hes : s.err = false := by
      cases h : s.err with
      | false => rfl
      | true => unfold State.appendLeader at he; rw [if_pos h] at he; simp [h] at he
    have hst : s.appendLeader vs cid = ({ s with last := s.last + vs.length }).enqueue (number (s.last + 1) vs) cid := by
      unfold State.appendLeader; rw [if_neg (by rw [hes]; simp)]
    rw [hst]
    exact (ih hes).push (j := .append (number (s.last + 1) vs) cid) rfl rfl (by intro c w hw; cases hw)
  | @append s ev dn r es cid f hc hne ht hnc ih =>
    have hes : s.err = false := by rw [append_err] at he; exact he
    rcases append_cases s es cid hes with ⟨_, q, hq⟩ | ⟨s1, h1, b, h2⟩
    · rw [hq]; exact (ih hes).congr rfl rfl
    · rw [h2]
      have h3 : AskDisk s1 := by
        rcases h1 with rfl | ⟨k, rfl⟩
        · exact ih hes
        · exact (ih hes).truncateSuffix k
      exact h3.push (j := .append (s.newOf es) cid) rfl rfl (by intro c w hw; cases hw)
  | @appendNone s ev dn r cid ih =>
    have hes : s.err = false := by rw [append_err] at he; exact he
    rcases append_cases s [] cid hes with ⟨_, q, hq⟩ | ⟨s1, h1, b, h2⟩
    · rw [hq]; exact (ih hes).congr rfl rfl
    · rw [h2]
      have h3 : AskDisk s1 := by
        rcases h1 with rfl | ⟨k, rfl⟩
        · exact ih hes
        · exact (ih hes).truncateSuffix k
      exact h3.push (j := .append (s.newOf []) cid) rfl rfl (by intro c w hw; cases hw)
  | @lastId s ev dn r cid hne ih =>
    have hes : s.err = false := he
    obtain ⟨L, hg⟩ := r.good hes
    have hI := hg.inv
    refine (ih hes).push (j := .lastId cid s.lastLogId) rfl rfl ?_
    intro c w hw
    cases hw
    refine ⟨⟨s.first, L⟩, hI.pend, ?_⟩
    have hlen := hI.len
    have hge : s.first ≤ s.last := by
      rcases hI.snapPos with hs | ⟨hs, _⟩
      · have h1 := r.first1 (by rw [hs])
        rw [hs] at hne
        have hne' : s.last ≠ 0 := hne
        have := hI.pos
        omega
      · have h1 := hI.snapFirst hs
        have h2 := hI.snapLast
        omega
    have hnil : L ≠ [] := by intro h; rw [h] at hlen; simp only [List.length_nil] at hlen; omega
    obtain ⟨e, hlast⟩ : ∃ e, L.getLast? = some e := ⟨_, List.getLast?_eq_some_getLast hnil⟩
    show L.getLast?.map entId = some s.lastLogId
    have hlp : 0 < L.length := List.length_pos_iff.mpr hnil
    have hlast0 := hlast
    have hm := List.mem_of_getLast? hlast
    rw [List.getLast?_eq_getElem?] at hlast
    have hi := MemLog.consec_get _ _ hI.idx _ _ hlast
    have hidx : e.index = s.last := by omega
    have hat : (logOf s L).at s.last = some e := (Sto.at_iff (a := logOf s L) hI.idx).mpr ⟨hm, hidx⟩
    unfold State.lastLogId
    rw [if_pos hge, hI.toInv0.getTerm, hat, hlast0]
    unfold entId
    rw [← hidx]; rfl
  | @setSnapshot s ev dn r m hok ih => rw [setSnapshot_err] at he; exact (ih he).setSnapshot m
  | @clearBuffered s ev dn r ih =>
    have hes : s.err = false := by
      unfold State.clearBuffered at he
      split at he <;> exact he
    unfold State.clearBuffered
    split
    · exact (ih hes).push (j := .truncPrefix (s.snap.index + 1)) rfl rfl (by intro c w hw; cases hw)
    · exact ih hes
  | @setApplied s ev dn r i h1 h2 ih =>
    have hes : s.err = false := by
      unfold State.setApplied at he
      split at he <;> exact he
    unfold State.setApplied
    split
    · exact ih hes
    · exact (ih hes).congr rfl rfl
  | @clear s ev dn r c hc h ih =>
    have heq : (s.clear c).err = s.err ∧ (s.clear c).queue = s.queue ∧ (s.clear c).store = s.store := by
      unfold State.clear
      cases s.mem with
      | nil => exact ⟨rfl, rfl, rfl⟩
      | cons e es => dsimp only; split <;> exact ⟨rfl, rfl, rfl⟩
    rw [heq.1] at he
    exact (ih he).congr heq.2.1 heq.2.2
  | @roundStart s ev dn r h ih => exact (ih he).congr rfl rfl
  | @roundEnd s ev dn r l h ih =>
    have heq : (s.roundEnd l).err = s.err ∧ (s.roundEnd l).queue = s.queue ∧ (s.roundEnd l).store = s.store := by
      unfold State.roundEnd State.setDisk
      cases l.lt s.disk <;> exact ⟨rfl, rfl, rfl⟩
    rw [heq.1] at he
    exact (ih he).congr heq.2.1 heq.2.2
  | @flush s ev dn r js rest l n late hq hj h hn ih =>
    have hes : s.err = false := by
      cases hs : s.err with
      | false => rfl
      | true => simp [State.flush, hs] at he
    obtain ⟨L0, hg⟩ := r.good hes
    have hlate : late = false := by simp [State.flush, hes] at he; exact he.2
    have hn' : n = (jobEnts js).length := by simp [State.flush, hes] at he; exact he.1
    subst hlate hn'
    refine (ih hes).pop hq (by simp [State.flush, hes]) ?_
    have hp := hg.inv.pend
    rw [hq] at hp
    obtain ⟨b, hb, _⟩ := runAll_split hp
    rw [hb, runAll_appends hj hb]
    simp [State.flush, hes]
  | @execOk s ev dn r j rest l hq hj h ih =>
    have hes : s.err = false := by
      have : (s.execOk j rest l).err = s.err := by cases j <;> rfl
      rw [this] at he; exact he
    obtain ⟨L0, hg⟩ := r.good hes
    have hp := hg.inv.pend
    rw [hq] at hp
    obtain ⟨b, hb, _⟩ := runAll_split (x := [j]) (y := rest) hp
    have hst : (s.execOk j rest l).store = (s.store.run j).getD s.store := by cases j <;> rfl
    refine (ih hes).pop (js := [j]) hq (by cases j <;> rfl) ?_
    rw [hst]
    simp only [Sto.runAll] at hb ⊢
    cases hr : s.store.run j with
    | none => rw [hr] at hb; cases hb
    | some b' => rfl
  | execFails r j rest b hq h ih => simp [State.execFails] at he
  | error r ih => simp at he

end Braft.LogMgr
