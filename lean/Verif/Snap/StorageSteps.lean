import Verif.Snap.StorageInv
/-
The steps of writers, readers and deletions preserve the invariant of LocalSnapshotStorage.
-/
set_option linter.unusedSectionVars false
set_option linter.unusedSimpArgs false
set_option linter.unusedVariables false

namespace Braft.Snap
variable {N B : Type} [DecidableEq N]

theorem Inv.create {s : State N B} (h : Inv s) : Inv s.create := by
  unfold State.create
  split
  · rename_i hp hw
    have hup := h.phase.up hp
    refine ⟨h.disk.same rfl rfl, Phase.of_up hp ?_⟩
    refine hup.neutral (by rw [hw]; rfl) rfl rfl rfl rfl rfl rfl rfl rfl rfl ?_
    exact hup.wok.calm_last (by rw [hw]; rfl)
  · exact h

theorem Inv.createStep {s : State N B} (h : Inv s) (d : Dir N B) : Inv (s.createStep d) := by
  unfold State.createStep
  split
  · rename_i hw
    refine h.neutral (by rw [hw]; simp) (by rw [hw]; rfl) (by show calm s.w = true; rw [hw]; rfl) rfl rfl rfl rfl rfl rfl rfl rfl rfl ?_
    intro hl
    unfold WOk
    rw [show ({ s with temp := s.temp.map (fun _ => d) } : State N B).w = s.w from rfl, hw]
    exact hl
  · exact h

theorem Inv.createFail {s : State N B} (h : Inv s) : Inv s.createFail := by
  unfold State.createFail
  split
  · rename_i hw
    exact h.neutral (by rw [hw]; simp) (by rw [hw]; rfl) rfl rfl rfl rfl rfl rfl rfl rfl rfl rfl (fun hl => hl)
  · exact h

theorem Inv.createDone {s : State N B} (h : Inv s) (b : Bool) : Inv (s.createDone b) := by
  unfold State.createDone
  split
  · rename_i hw
    split
    · exact h.neutral (by rw [hw]; simp) (by rw [hw]; rfl) rfl rfl rfl rfl rfl rfl rfl rfl rfl rfl (fun hl => hl)
    · split
      · exact h.neutral (by rw [hw]; simp) (by rw [hw]; rfl) rfl rfl rfl rfl rfl rfl rfl rfl rfl rfl (fun hl => hl)
      · exact h.neutral (by rw [hw]; simp) (by rw [hw]; rfl) rfl rfl rfl rfl rfl rfl rfl rfl rfl rfl (fun hl => hl)
  · exact h

theorem Inv.write {s : State N B} (h : Inv s) (d : Dir N B) (i : Nat) (t : List N) (e : Err) : Inv (s.write d i t e) := by
  unfold State.write
  split
  · rename_i hw
    exact h.neutral (by rw [hw]; simp) (by rw [hw]; rfl) rfl rfl rfl rfl rfl rfl rfl rfl rfl rfl (fun hl => hl)
  · exact h

theorem Inv.giveUp {s : State N B} (h : Inv s) (hn : s.w ≠ .idle) (hc : calm s.w = true) (e : Err) (keep : Bool) : Inv (s.giveUp e keep) := by
  unfold State.giveUp
  split
  · exact h.neutral hn hc rfl rfl rfl rfl rfl rfl rfl rfl rfl rfl (fun hl => hl)
  · exact h.neutral hn hc rfl rfl rfl rfl rfl rfl rfl rfl rfl rfl (fun hl => hl)

theorem Inv.close {s : State N B} (h : Inv s) (a b : Bool) (hnew : ∀ i t, s.w = .writing i t .none → s.last ≤ i) : Inv (s.close a b) := by
  unfold State.close
  split
  · rename_i index table err hw
    have hn : s.w ≠ .idle := by rw [hw]; simp
    have hc : calm s.w = true := by rw [hw]; rfl
    split
    · exact h.giveUp hn hc _ _
    · rename_i herr
      have herr : err = .none := Classical.byContradiction herr
      subst herr
      have hle := hnew index table hw
      split
      · exact h.giveUp hn hc _ _
      · dsimp only
        have h1 : Inv ({ s with temp := some ⟨some ⟨index, table⟩, (s.temp.map Dir.files).getD []⟩ } : State N B) := by
          refine h.neutral hn hc hc rfl rfl rfl rfl rfl rfl rfl rfl rfl ?_
          intro hl
          unfold WOk
          dsimp only
          rw [hw]
          exact hl
        split
        · exact h1.giveUp hn hc _ _
        · rename_i hne
          refine h1.neutral hn hc rfl rfl rfl rfl rfl rfl rfl rfl rfl rfl ?_
          intro hl
          refine ⟨hl, rfl, ?_, rfl, table, rfl⟩
          show s.last < index
          have : index ≠ s.last := hne
          omega
  · exact h

/-- Above the newest snapshot there is nothing. -/
theorem Disk.above {s : State N B} (h : Disk s) {n : Nat} (hn : top s < n) : get s.snaps n = none := by
  cases hg : get s.snaps n with
  | none => rfl
  | some d => have := h.keys n (by rw [hg]; rfl); omega

theorem Inv.clearNewStep {s : State N B} (h : Inv s) (d : Dir N B) : Inv (s.clearNewStep d) := by
  unfold State.clearNewStep
  split
  · rename_i n o d' hw
    have hp := h.phase.running (by rw [hw]; simp)
    have hwk := (h.phase.up hp).wok
    unfold WOk at hwk; rw [hw] at hwk
    obtain ⟨h1, h2, h3, _⟩ := hwk
    unfold State.rot
    rw [h.disk.above (n := n) (by omega)]
    exact h
  · exact h

theorem del_none {α : Type} {l : List (Nat × α)} {i : Nat} (h : get l i = none) : del l i = l := by
  unfold del
  rw [List.filter_eq_self]
  intro x hx
  simp
  intro he
  subst he
  exact get_none h x.2 hx

theorem Inv.clearNewDone {s : State N B} (h : Inv s) (a b : Bool) : Inv (s.clearNewDone a b) := by
  unfold State.clearNewDone
  split
  · rename_i n o d' hw
    have hn : s.w ≠ .idle := by rw [hw]; simp
    have hc : calm s.w = true := by rw [hw]; rfl
    have hp := h.phase.running hn
    have hwk := (h.phase.up hp).wok
    unfold WOk at hwk; rw [hw] at hwk
    obtain ⟨h1, h2, h3, h4⟩ := hwk
    split
    · rw [del_none (h.disk.above (n := n) (by omega))]
      exact h.neutral hn hc rfl rfl rfl rfl rfl rfl rfl rfl rfl rfl (fun hl => ⟨hl, h2, h3, h4⟩)
    · exact h.giveUp hn hc _ _
  · exact h

theorem Inv.rename {s : State N B} (h : Inv s) (a b : Bool) : Inv (s.rename a b) := by
  unfold State.rename
  split
  · rename_i n o d hw
    have hn : s.w ≠ .idle := by rw [hw]; simp
    have hc : calm s.w = true := by rw [hw]; rfl
    have hp := h.phase.running hn
    have hup := h.phase.up hp
    have hwk := hup.wok
    unfold WOk at hwk; rw [hw] at hwk
    obtain ⟨h1, h2, h3, h4, t, h5⟩ := hwk
    split
    · split
      · exact h.giveUp hn hc _ _
      · rename_i t' ht
        rw [h4] at ht
        injection ht with ht
        subst ht
        have habove := h.disk.above (n := n) (by omega)
        have hlt : ∀ x ∈ s.pub, x.1 < n := by
          intro x hx
          have hle : x.1 ≤ top s := by
            cases hpb : s.pub with
            | nil => rw [hpb] at hx; cases hx
            | cons y l =>
              have : top s = y.1 := by unfold top; rw [hpb]; rfl
              rw [this]
              rw [hpb] at hx
              rcases List.mem_cons.mp hx with rfl | hx
              · exact Nat.le_refl _
              · have := h.disk.dec; rw [hpb] at this
                exact Nat.le_of_lt (List.rel_of_pairwise_cons this hx)
          omega
        have htop : top ({ s with temp := none, snaps := put s.snaps n d, w := .renamed n o, pub := (n, d) :: s.pub } : State N B) = n := rfl
        refine ⟨⟨?_, ?_, ?_, ?_⟩, Phase.of_up hp ?_⟩
        · intro n' d' rest he
          injection he with e1 e2
          injection e1 with e3 e4
          subst e3; subst e4
          refine ⟨?_, by omega⟩
          show get (put s.snaps n d) n = _
          rw [get_put, if_pos rfl]
        · intro i hi
          rw [htop]
          change (get (put s.snaps n d) i).isSome = true at hi
          rw [get_put] at hi
          by_cases e : i = n
          · subst e; omega
          · rw [if_neg e] at hi
            have := h.disk.keys i hi
            omega
        · exact List.pairwise_cons.mpr ⟨hlt, h.disk.dec⟩
        · intro x hx
          rcases List.mem_cons.mp hx with rfl | hx
          · exact ⟨t, h5⟩
          · exact h.disk.info x hx
        · refine ⟨?_, hup.refPos, hup.rid, hup.ridLt, hup.rpos, ?_, hup.dead, ?_, ?_⟩
          · intro i
            have := hup.refEq i
            rw [own_calm hc] at this
            show s.ref i = own (.renamed n o) s.last i + _
            rw [this]; rfl
          · intro i hi
            obtain ⟨d0, g1, g2⟩ := hup.live i hi
            refine ⟨d0, ?_, List.mem_cons_of_mem _ g2⟩
            show get (put s.snaps n d) i = _
            rw [get_put, if_neg, g1]
            have := h.disk.keys i (by rw [g1]; rfl)
            omega
          · intro i hi
            change (get (put s.snaps n d) i).isSome = true at hi
            rw [get_put] at hi
            by_cases e : i = n
            · subst e
              exact Or.inr (Or.inr (Or.inr (Or.inr ⟨o, rfl⟩)))
            · rw [if_neg e] at hi
              rcases hup.rest i hi with g | g | g | g | ⟨o', g⟩
              · exact Or.inl g
              · exact Or.inr (Or.inl g)
              · exact Or.inr (Or.inr (Or.inl g))
              · exact Or.inr (Or.inr (Or.inr (Or.inl g)))
              · rw [hw] at g; cases g
          · exact ⟨h2.symm, rfl, h3⟩
    · exact h.giveUp hn hc _ _
  · exact h

theorem Inv.closeRef {s : State N B} (h : Inv s) : Inv s.closeRef := by
  unfold State.closeRef
  split
  · rename_i n o hw
    have hn : s.w ≠ .idle := by rw [hw]; simp
    have hp := h.phase.running hn
    have hup := h.phase.up hp
    have hwk := hup.wok
    unfold WOk at hwk; rw [hw] at hwk
    obtain ⟨h1, h2, h3⟩ := hwk
    obtain ⟨d, rest, hpub, hg⟩ := h.disk.topPos (by omega)
    have hr : ∀ i, State.ref ({ s.doRef n with w := .reffed n o } : State N B) i = s.ref i + if i = n then 1 else 0 := fun i => ref_doRef s n i
    refine ⟨h.disk.same rfl rfl, Phase.of_up hp ⟨?_, refs_doRef_pos hup.refPos n, hup.rid, hup.ridLt, hup.rpos, ?_, ?_, ?_, ⟨h1, h2, h3⟩⟩⟩
    · intro i
      rw [hr, hup.refEq i, hw]
      show own (.renamed n o) s.last i + s.readers.countP _ + _ = own (.reffed n o) s.last i + s.readers.countP _
      unfold own
      dsimp only
      omega
    · intro i hi
      rw [hr] at hi
      by_cases e : i = n
      · subst e
        rw [h2] at hpub hg
        exact ⟨d, hg, by show _ ∈ s.pub; rw [hpub]; exact List.mem_cons_self ..⟩
      · rw [if_neg e] at hi; exact hup.live i (by omega)
    · intro i hi
      obtain ⟨g1, g2⟩ := hup.dead i hi
      refine ⟨?_, g2⟩
      rw [hr, g1, if_neg (by have : i < s.last := g2; omega)]
    · intro i hi
      rcases hup.rest i hi with g | g | g | g | ⟨o', g⟩
      · exact Or.inl g
      · refine Or.inr (Or.inl ?_); rw [hr]; omega
      · exact Or.inr (Or.inr (Or.inl g))
      · exact Or.inr (Or.inr (Or.inr (Or.inl g)))
      · rw [hw] at g; injection g with g1 g2
        refine Or.inr (Or.inl ?_); rw [hr, if_pos g1.symm]; omega
  · exact h

theorem Inv.closeLast {s : State N B} (h : Inv s) : Inv s.closeLast := by
  unfold State.closeLast
  split
  · rename_i n o hw
    have hn : s.w ≠ .idle := by rw [hw]; simp
    have hp := h.phase.running hn
    have hup := h.phase.up hp
    have hwk := hup.wok
    unfold WOk at hwk; rw [hw] at hwk
    obtain ⟨h1, h2, h3⟩ := hwk
    refine ⟨h.disk.same rfl rfl, Phase.of_up hp ⟨?_, hup.refPos, hup.rid, hup.ridLt, ?_, hup.live, ?_, ?_, ⟨rfl, h2, h3⟩⟩⟩
    · intro i
      show s.ref i = own (.moved n o) n i + s.readers.countP _
      rw [hup.refEq i, hw, h1]
      unfold own
      dsimp only
      have : n ≠ 0 := by omega
      simp only [this, ne_eq, not_false_eq_true, and_true]
      omega
    · intro r hr
      have := hup.rpos r hr
      show 0 < r.2 ∧ r.2 ≤ n
      omega
    · intro i hi
      obtain ⟨g1, g2⟩ := hup.dead i hi
      exact ⟨g1, by show i < n; omega⟩
    · intro i hi
      rcases hup.rest i hi with g | g | g | g | ⟨o', g⟩
      · refine Or.inr (Or.inl ?_)
        show 0 < s.ref i
        rw [hup.refEq i, hw]
        unfold own
        dsimp only
        have : 0 < i := (h.disk.keys i hi).2
        rw [if_pos (by omega)]
        omega
      · exact Or.inr (Or.inl g)
      · exact Or.inr (Or.inr (Or.inl g))
      · exact Or.inr (Or.inr (Or.inr (Or.inl g)))
      · rw [hw] at g; cases g
  · exact h

theorem Inv.closeUnref {s : State N B} (h : Inv s) : Inv s.closeUnref := by
  unfold State.closeUnref
  split
  · rename_i n o hw
    have hn : s.w ≠ .idle := by rw [hw]; simp
    have hp := h.phase.running hn
    have hup := h.phase.up hp
    have hwk := hup.wok
    unfold WOk at hwk; rw [hw] at hwk
    obtain ⟨h1, h2, h3⟩ := hwk
    have hown : ∀ i, own s.w s.last i = own (.idle : Writer N B) s.last i + if i = o ∧ o ≠ 0 then 1 else 0 := by
      intro i; rw [hw]; rfl
    by_cases ho : o = 0
    · have hz : s.ref o = 0 := by
        rw [hup.refEq o, hown, if_neg (by simp [ho])]
        unfold own
        rw [if_neg (by omega)]
        have : s.readers.countP (fun r => decide (r.2 = o)) = 0 := by
          rw [List.countP_eq_zero]
          intro r hr
          have := hup.rpos r hr
          simp; omega
        rw [this]
        rfl
      rw [doUnref_zero hup.refPos hz]
      refine ⟨h.disk.same rfl rfl, Phase.of_up hp ⟨?_, hup.refPos, hup.rid, hup.ridLt, hup.rpos, hup.live, hup.dead, ?_, by show s.last = top s; omega⟩⟩
      · intro i
        show s.ref i = own (.idle : Writer N B) s.last i + s.readers.countP _
        rw [hup.refEq i, hown, if_neg (by omega)]
        rfl
      · intro i hi
        rcases hup.rest i hi with g | g | g | g | ⟨o', g⟩
        · exact Or.inl g
        · exact Or.inr (Or.inl g)
        · exact Or.inr (Or.inr (Or.inl g))
        · exact Or.inr (Or.inr (Or.inr (Or.inl g)))
        · rw [hw] at g; cases g
    · have hpos : 0 < s.ref o := by rw [hup.refEq o, hown, if_pos ⟨rfl, ho⟩]; omega
      obtain ⟨r1, r2, r3, r4, r5, r6, r7, r8, r9, r10, r11, r12⟩ := doUnref_cases hup.refPos hpos
      suffices key : ∀ s' : State N B, (∀ j, s'.ref j = if j = o then s.ref o - 1 else s.ref j) → (∀ j, get s'.refs j ≠ some 0) →
          (s'.dels = if s.ref o = 1 then o :: s.dels else s.dels) → s'.snaps = s.snaps → s'.last = s.last → s'.readers = s.readers →
          s'.pub = s.pub → s'.w = .idle → s'.left = s.left → s'.nextId = s.nextId → s'.proc = s.proc → Inv s' from
        key _ r1 r2 r3 r4 r5 r6 r7 rfl r9 r10 r12
      clear r1 r2 r3 r4 r5 r6 r7 r8 r9 r10 r11 r12
      intro s' hr r2 r3 r4 r5 r6 r7 r8 r9 r10 r12
      refine ⟨h.disk.same r7 r4, Phase.of_up (by rw [r12, hp]) ⟨?_, r2, by rw [r6]; exact hup.rid, by rw [r6, r10]; exact hup.ridLt, by rw [r6, r5]; exact hup.rpos, ?_, ?_, ?_, ?_⟩⟩
      · intro i
        rw [hr, r5, r6, r8]
        have hi := hup.refEq i
        rw [hown] at hi
        by_cases e : i = o
        · subst e; rw [if_pos rfl, hi, if_pos ⟨rfl, ho⟩]; omega
        · rw [if_neg e, hi, if_neg (by omega)]; rfl
      · intro i hi
        rw [r4, r7]
        apply hup.live
        rw [hr] at hi
        by_cases e : i = o
        · subst e; exact hpos
        · rw [if_neg e] at hi; exact hi
      · intro i hi
        rw [r5, hr]
        rw [r3] at hi
        by_cases e1 : s.ref o = 1
        · rw [if_pos e1] at hi
          rcases List.mem_cons.mp hi with rfl | hi
          · rw [if_pos rfl]; omega
          · obtain ⟨g1, g2⟩ := hup.dead i hi
            refine ⟨?_, g2⟩
            split <;> omega
        · rw [if_neg e1] at hi
          obtain ⟨g1, g2⟩ := hup.dead i hi
          refine ⟨?_, g2⟩
          split
          · rename_i e; subst e; omega
          · exact g1
      · intro i hi
        rw [r4] at hi
        rw [r5, hr, r3, r9]
        by_cases e : i = o
        · subst e
          rw [if_pos rfl]
          by_cases e1 : s.ref i = 1
          · rw [if_pos e1]; exact Or.inr (Or.inr (Or.inl (List.mem_cons_self ..)))
          · exact Or.inr (Or.inl (by omega))
        · rw [if_neg e]
          rcases hup.rest i hi with g | g | g | g | ⟨o', g⟩
          · exact Or.inl g
          · exact Or.inr (Or.inl g)
          · refine Or.inr (Or.inr (Or.inl ?_))
            split
            · exact List.mem_cons_of_mem _ g
            · exact g
          · exact Or.inr (Or.inr (Or.inr (Or.inl g)))
          · rw [hw] at g; cases g
      · unfold WOk
        rw [r8]
        show s'.last = top s'
        have : top s' = top s := by unfold top; rw [r7]
        rw [this, r5]; omega
  · exact h

theorem Inv.dropStep {s : State N B} (h : Inv s) (d : Dir N B) : Inv (s.dropStep d) := by
  unfold State.dropStep
  split
  · rename_i hw
    refine h.neutral (by rw [hw]; simp) (by rw [hw]; rfl) (by show calm s.w = true; rw [hw]; rfl) rfl rfl rfl rfl rfl rfl rfl rfl rfl ?_
    intro hl
    unfold WOk
    rw [show ({ s with temp := s.temp.map (fun _ => d) } : State N B).w = s.w from rfl, hw]
    exact hl
  · exact h

theorem Inv.dropDone {s : State N B} (h : Inv s) (a : Bool) : Inv (s.dropDone a) := by
  unfold State.dropDone
  split
  · rename_i hw
    exact h.neutral (by rw [hw]; simp) (by rw [hw]; rfl) rfl rfl rfl rfl rfl rfl rfl rfl rfl rfl (fun hl => hl)
  · exact h

/-! ### Readers and deletions -/

theorem WOk.last_le {s : State N B} (h : WOk s) : s.last ≤ top s := by
  unfold WOk at h
  cases hw : s.w <;> rw [hw] at h <;> dsimp only at h <;> omega

theorem WOk.congr {s t : State N B} (h : WOk s) (e1 : t.w = s.w) (e2 : t.last = s.last) (e3 : t.pub = s.pub) (e4 : t.temp = s.temp) : WOk t := by
  have ht : top t = top s := by unfold top; rw [e3]
  unfold WOk at h ⊢
  rw [e1, e2, e4, ht]
  exact h

theorem Inv.open {s : State N B} (h : Inv s) : Inv s.open := by
  unfold State.open
  split
  · rename_i hp
    obtain ⟨hp, hl⟩ := hp
    have hup := h.phase.up hp
    have hr : ∀ i, State.ref ({ s.doRef s.last with readers := (s.nextId, s.last) :: s.readers, nextId := s.nextId + 1 } : State N B) i
        = s.ref i + if i = s.last then 1 else 0 := fun i => ref_doRef s s.last i
    have hlive : 0 < s.ref s.last := by
      rw [hup.refEq]; unfold own; rw [if_pos ⟨rfl, hl⟩]; omega
    refine ⟨h.disk.same rfl rfl, Phase.of_up hp ⟨?_, refs_doRef_pos hup.refPos _, ?_, ?_, ?_, ?_, ?_, ?_, hup.wok.congr rfl rfl rfl rfl⟩⟩
    · intro i
      rw [hr, hup.refEq i]
      show _ = own s.w s.last i + List.countP _ ((s.nextId, s.last) :: s.readers)
      rw [List.countP_cons]
      have : (decide ((s.nextId, s.last).2 = i) = true) ↔ i = s.last := by simp [eq_comm]
      by_cases e : i = s.last
      · rw [if_pos e, if_pos (this.mpr e)]; omega
      · rw [if_neg e, if_neg (fun hc => e (this.mp hc))]; omega
    · show (s.nextId :: s.readers.map Prod.fst).Nodup
      refine List.nodup_cons.mpr ⟨?_, hup.rid⟩
      intro hm
      obtain ⟨r, hr1, hr2⟩ := List.mem_map.mp hm
      have := hup.ridLt r hr1
      omega
    · intro r hr1
      show r.1 < s.nextId + 1
      rcases List.mem_cons.mp hr1 with rfl | hr1
      · show s.nextId < _; omega
      · have := hup.ridLt r hr1; omega
    · intro r hr1
      rcases List.mem_cons.mp hr1 with rfl | hr1
      · exact ⟨by show 0 < s.last; omega, Nat.le_refl _⟩
      · exact hup.rpos r hr1
    · intro i hi
      apply hup.live
      rw [hr] at hi
      by_cases e : i = s.last
      · rw [e]; exact hlive
      · rw [if_neg e] at hi; exact hi
    · intro i hi
      obtain ⟨g1, g2⟩ := hup.dead i hi
      refine ⟨?_, g2⟩
      rw [hr, g1, if_neg (by have : i < s.last := g2; omega)]
    · intro i hi
      rcases hup.rest i hi with g | g | g | g | g
      · exact Or.inl g
      · refine Or.inr (Or.inl ?_); rw [hr]; omega
      · exact Or.inr (Or.inr (Or.inl g))
      · exact Or.inr (Or.inr (Or.inr (Or.inl g)))
      · exact Or.inr (Or.inr (Or.inr (Or.inr g)))
  · exact h

theorem countP_del {l : List (Nat × Nat)} (hn : (l.map Prod.fst).Nodup) {id i : Nat} (hm : (id, i) ∈ l) (p : Nat → Bool) :
    l.countP (fun r => p r.2) = (del l id).countP (fun r => p r.2) + if p i = true then 1 else 0 := by
  induction l with
  | nil => cases hm
  | cons x l ih =>
    simp only [List.map_cons, List.nodup_cons] at hn
    obtain ⟨h1, h2⟩ := hn
    unfold del
    by_cases hx : x.1 = id
    · have hxe : x = (id, i) := by
        rcases List.mem_cons.mp hm with h | h
        · exact h.symm
        · exact absurd (List.mem_map.mpr ⟨_, h, rfl⟩) (by rw [hx] at h1; exact h1)
      subst hxe
      rw [List.filter_cons_of_neg (by simp), List.countP_cons]
      have : l.filter (fun x => !(x.1 == id)) = l := by
        rw [List.filter_eq_self]
        intro y hy
        simp
        intro he
        exact h1 (List.mem_map.mpr ⟨y, hy, he⟩)
      rw [this]
    · have hm' : (id, i) ∈ l := by
        rcases List.mem_cons.mp hm with h | h
        · subst h; exact absurd rfl hx
        · exact h
      rw [List.filter_cons_of_pos (by simp [hx]), List.countP_cons, List.countP_cons, ih h2 hm']
      unfold del
      omega

theorem mem_del {α : Type} {l : List (Nat × α)} {i : Nat} {x : Nat × α} (h : x ∈ del l i) : x ∈ l ∧ x.1 ≠ i := by
  unfold del at h
  rw [List.mem_filter] at h
  exact ⟨h.1, by simpa using h.2⟩

theorem Inv.closeReader {s : State N B} (h : Inv s) (id : Nat) : Inv (s.closeReader id) := by
  unfold State.closeReader
  cases hg : get s.readers id with
  | none => exact h
  | some k =>
    dsimp only
    have hm := get_mem hg
    have hp : s.proc = .up := by
      have hph := h.phase
      unfold Phase at hph
      cases hp : s.proc <;> rw [hp] at hph <;> dsimp only at hph
      · rw [hph.readers] at hm; cases hm
      · rw [hph.readers] at hm; cases hm
      · rw [hph.1.readers] at hm; cases hm
    have hup := h.phase.up hp
    have hcnt : ∀ i, s.readers.countP (fun r => decide (r.2 = i)) = (del s.readers id).countP (fun r => decide (r.2 = i)) + if i = k then 1 else 0 := by
      intro i
      have := countP_del hup.rid hm (fun x => decide (x = i))
      rw [this]
      by_cases e : i = k
      · rw [if_pos e, if_pos (by simp [e])]
      · rw [if_neg e, if_neg (by simp; omega)]
    have hpos : 0 < State.ref ({ s with readers := del s.readers id } : State N B) k := by
      show 0 < s.ref k
      rw [hup.refEq k, hcnt, if_pos rfl]; omega
    obtain ⟨r1, r2, r3, r4, r5, r6, r7, r8, r9, r10, r11, r12⟩ := doUnref_cases (s := { s with readers := del s.readers id }) hup.refPos hpos
    generalize hs' : State.doUnref ({ s with readers := del s.readers id } : State N B) k = s' at *
    have hr : ∀ i, s'.ref i = if i = k then s.ref k - 1 else s.ref i := r1
    have hk := hup.rpos _ hm
    refine ⟨h.disk.same r7 r4, Phase.of_up (by rw [r12]; exact hp) ⟨?_, r2, ?_, ?_, ?_, ?_, ?_, ?_, hup.wok.congr r8 r5 r7 r11⟩⟩
    · intro i
      rw [hr, r5, r6, r8]
      show _ = own s.w s.last i + (del s.readers id).countP _
      have hi := hup.refEq i
      rw [hcnt] at hi
      by_cases e : i = k
      · subst e; rw [if_pos rfl, hi, if_pos rfl]; omega
      · rw [if_neg e, hi, if_neg e]; rfl
    · rw [r6]
      exact (List.filter_sublist.map _).nodup hup.rid
    · rw [r6, r10]; intro r hr1; exact hup.ridLt r (mem_del hr1).1
    · rw [r6, r5]; intro r hr1; exact hup.rpos r (mem_del hr1).1
    · intro i hi
      rw [r4, r7]
      apply hup.live
      rw [hr] at hi
      by_cases e : i = k
      · subst e; exact hpos
      · rw [if_neg e] at hi; exact hi
    · intro i hi
      rw [r5, hr]
      rw [r3] at hi
      show _ ∧ i < s.last
      have hown : s.ref s.last ≠ 0 ∨ s.last = 0 := by
        by_cases hl : s.last = 0
        · exact Or.inr hl
        · refine Or.inl ?_; rw [hup.refEq]; unfold own; rw [if_pos ⟨rfl, hl⟩]; omega
      by_cases e1 : State.ref ({ s with readers := del s.readers id } : State N B) k = 1
      · rw [if_pos e1] at hi
        have e1' : s.ref k = 1 := e1
        rcases List.mem_cons.mp hi with rfl | hi
        · rw [if_pos rfl]
          refine ⟨by omega, ?_⟩
          have hne : i ≠ s.last := by
            intro he
            have := hup.refEq i
            rw [hcnt, if_pos rfl] at this
            unfold own at this
            rw [if_pos (by omega)] at this
            omega
          have := hk.2
          dsimp only at this
          omega
        · obtain ⟨g1, g2⟩ := hup.dead i hi
          refine ⟨?_, g2⟩
          split <;> omega
      · rw [if_neg e1] at hi
        obtain ⟨g1, g2⟩ := hup.dead i hi
        refine ⟨?_, g2⟩
        split
        · rename_i e; subst e; omega
        · exact g1
    · intro i hi
      rw [r4] at hi
      rw [r5, hr, r3, r9, r8]
      show i = s.last ∨ _ ∨ _ ∨ i ∈ s.left ∨ _
      by_cases e : i = k
      · subst e
        rw [if_pos rfl]
        by_cases e1 : State.ref ({ s with readers := del s.readers id } : State N B) i = 1
        · rw [if_pos e1]; exact Or.inr (Or.inr (Or.inl (List.mem_cons_self ..)))
        · have e1' : s.ref i ≠ 1 := e1
          have hpos' : 0 < s.ref i := hpos
          exact Or.inr (Or.inl (by omega))
      · rw [if_neg e]
        rcases hup.rest i hi with g | g | g | g | g
        · exact Or.inl g
        · exact Or.inr (Or.inl g)
        · refine Or.inr (Or.inr (Or.inl ?_))
          split
          · exact List.mem_cons_of_mem _ g
          · exact g
        · exact Or.inr (Or.inr (Or.inr (Or.inl g)))
        · exact Or.inr (Or.inr (Or.inr (Or.inr g)))

theorem Phase.up_of_dels {s : State N B} (h : Phase s) {i : Nat} (hi : i ∈ s.dels) : s.proc = .up := by
  unfold Phase at h
  cases hp : s.proc <;> rw [hp] at h <;> dsimp only at h
  · rw [h.dels] at hi; cases hi
  · rw [h.dels] at hi; cases hi
  · rw [h.1.dels] at hi; cases hi

theorem Inv.delStep {s : State N B} (h : Inv s) (i : Nat) (d : Dir N B) : Inv (s.delStep i d) := by
  unfold State.delStep
  split
  · rename_i hi
    have hp := h.phase.up_of_dels hi
    have hup := h.phase.up hp
    obtain ⟨g1, g2⟩ := hup.dead i hi
    have hle := hup.wok.last_le
    obtain ⟨e1, e2, e3, e4, e5, e6, e7, e8, e9, e10, e11⟩ := rot_same s i d
    have er : ∀ j, (s.rot i d).ref j = s.ref j := by intro j; unfold State.ref; rw [e4]
    have hs : ∀ j, (get (s.rot i d).snaps j).isSome = true → (get s.snaps j).isSome = true := by
      intro j hj
      rw [get_rot] at hj
      by_cases e : j = i
      · subst e; rw [if_pos rfl] at hj; simpa using hj
      · rw [if_neg e] at hj; exact hj
    refine ⟨h.disk.change e1 (i := i) (by omega) (fun j hj => by rw [get_rot, if_neg hj]) (hs i), Phase.of_up (by rw [e2, hp]) ?_⟩
    refine ⟨?_, by rw [e4]; exact hup.refPos, by rw [e5]; exact hup.rid, by rw [e5, e6]; exact hup.ridLt, by rw [e5, e3]; exact hup.rpos, ?_, ?_, ?_, hup.wok.congr e8 e3 e1 e10⟩
    · intro j; rw [er, e8, e3, e5]; exact hup.refEq j
    · intro j hj
      rw [er] at hj
      rw [get_rot, if_neg (by intro he; subst he; omega), e1]
      exact hup.live j hj
    · rw [e7, e3]; intro j hj; rw [er]; exact hup.dead j hj
    · intro j hj
      rw [e3, er, e7, e9, e8]
      exact hup.rest j (hs j hj)
  · exact h

theorem Inv.delDone {s : State N B} (h : Inv s) (i : Nat) (a : Bool) : Inv (s.delDone i a) := by
  unfold State.delDone
  split
  · rename_i hi
    have hp := h.phase.up_of_dels hi
    have hup := h.phase.up hp
    obtain ⟨g1, g2⟩ := hup.dead i hi
    have hle := hup.wok.last_le
    split
    · have hget : ∀ j, get ({ s with dels := s.dels.erase i, snaps := del s.snaps i } : State N B).snaps j = if j = i then none else get s.snaps j := fun j => get_del _ _ _
      refine ⟨h.disk.change rfl (i := i) (by omega) (fun j hj => by rw [hget, if_neg hj]) (fun hx => by rw [hget, if_pos rfl] at hx; cases hx), Phase.of_up hp ?_⟩
      refine ⟨hup.refEq, hup.refPos, hup.rid, hup.ridLt, hup.rpos, ?_, ?_, ?_, hup.wok.congr rfl rfl rfl rfl⟩
      · intro j hj
        rw [hget, if_neg (by intro he; subst he; exact absurd hj (by show ¬ 0 < s.ref j; omega))]
        exact hup.live j hj
      · intro j hj; exact hup.dead j (List.mem_of_mem_erase hj)
      · intro j hj
        rw [hget] at hj
        by_cases e : j = i
        · rw [if_pos e] at hj; cases hj
        · rw [if_neg e] at hj
          rcases hup.rest j hj with g | g | g | g | g
          · exact Or.inl g
          · exact Or.inr (Or.inl g)
          · exact Or.inr (Or.inr (Or.inl ((List.mem_erase_of_ne e).mpr g)))
          · exact Or.inr (Or.inr (Or.inr (Or.inl g)))
          · exact Or.inr (Or.inr (Or.inr (Or.inr g)))
    · refine ⟨h.disk.same rfl rfl, Phase.of_up hp ?_⟩
      refine ⟨hup.refEq, hup.refPos, hup.rid, hup.ridLt, hup.rpos, hup.live, ?_, ?_, hup.wok.congr rfl rfl rfl rfl⟩
      · intro j hj; exact hup.dead j (List.mem_of_mem_erase hj)
      · intro j hj
        rcases hup.rest j hj with g | g | g | g | g
        · exact Or.inl g
        · exact Or.inr (Or.inl g)
        · by_cases e : j = i
          · exact Or.inr (Or.inr (Or.inr (Or.inl (by show j ∈ i :: s.left; rw [e]; exact List.mem_cons_self ..))))
          · exact Or.inr (Or.inr (Or.inl ((List.mem_erase_of_ne e).mpr g)))
        · exact Or.inr (Or.inr (Or.inr (Or.inl (List.mem_cons_of_mem _ g))))
        · exact Or.inr (Or.inr (Or.inr (Or.inr g)))
  · exact h

theorem Inv.step {s t : State N B} (h : Inv s) (hs : Step s t) : Inv t := by
  cases hs with
  | crash => exact h.crash
  | init => exact h.init
  | initTempStep d => exact h.initTempStep _
  | initScan b => exact h.initScan _
  | initOldStep d => exact h.initOldStep _
  | initOldDone => exact h.initOldDone
  | initDone => exact h.initDone
  | create => exact h.create
  | createStep d => exact h.createStep _
  | createFail => exact h.createFail
  | createDone b => exact h.createDone _
  | write d i t e => exact h.write _ _ _ _
  | close a b hn => exact h.close _ _ hn
  | clearNewStep d => exact h.clearNewStep _
  | clearNewDone a b => exact h.clearNewDone _ _
  | rename a b => exact h.rename _ _
  | closeRef => exact h.closeRef
  | closeLast => exact h.closeLast
  | closeUnref => exact h.closeUnref
  | dropStep d => exact h.dropStep _
  | dropDone a => exact h.dropDone _
  | «open» => exact h.open
  | closeReader i => exact h.closeReader _
  | delStep i d => exact h.delStep _ _
  | delDone i a => exact h.delDone _ _

theorem Inv.empty : Inv (State.empty : State N B) := by
  refine ⟨⟨?_, ?_, List.Pairwise.nil, ?_⟩, ⟨rfl, rfl, rfl, rfl, rfl⟩⟩
  · intro n d rest h; cases h
  · intro i h; cases h
  · intro x h; cases h

theorem Hist.inv {s : State N B} (h : Hist s) : Inv s := by
  induction h with
  | empty => exact Inv.empty
  | step _ hs ih => exact ih.step hs

theorem Later.hist {s t : State N B} (h : Hist s) (hl : Later s t) : Hist t := by
  induction hl with
  | refl => exact h
  | step _ hs ih => exact ih.step hs

end Braft.Snap
