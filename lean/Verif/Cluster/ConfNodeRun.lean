import Verif.Cluster.ConfNodeInv
/-
Every call of ConfigurationCtx finds the server ready for the entry it submits, and the invariant of
Verif/Cluster/ConfNodeInv.lean holds in every execution.
-/
set_option linter.unusedVariables false
set_option linter.unusedSimpArgs false
set_option linter.unusedSectionVars false

namespace Braft.CN
open Braft.Raft Braft.Cl Braft.ConfCtx
variable {N D : Type} [DecidableEq N] [DecidableEq D] {c0 : Conf N} {p : CParams}

theorem Follows.nodup {x : State N} {e : ConfCtx.Entry N} (h : Follows x.conf x.old e) (hn : x.conf.Nodup) : e.olds.Nodup := by
  rcases h with ⟨_, ⟨h, _⟩ | ⟨h, _⟩⟩ | ⟨_, h, _⟩ <;> rw [h]
  · exact hn
  · exact .nil
  · exact .nil

theorem leads_iff {c : Srv N D} {x : State N} (h : x.role = roleOfSt c.state) :
    c.state.leads = true ↔ (x.role = .leader ∨ x.role = .transferring) := by
  rw [h]; cases c.state <;> simp [roleOfSt, St.leads]

/-- What is left after a call at server `i`. -/
structure After (p : CParams) (c0 : Conf N) (s : FSys N D) (i : N) (x' : State N) (s' : FSys N D) : Prop where
  steps : CSteps p c0 s.cl s'.cl
  cx : s'.cx i = x'
  ni : NI p c0 s'.cl i (s'.cl.node i) (s'.cx i) (s'.fate i)
  other : ∀ j, j ≠ i → s'.cl.node j = s.cl.node j ∧ s'.cx j = s.cx j ∧ s'.fate j = s.fate j

theorem put_ni {s : FSys N D} {i : N} (hr : CReachable p c0 s.cl) (h : NI p c0 s.cl i (s.cl.node i) (s.cx i) (s.fate i))
    {G : Prop} {x' : State N} {pd : List (Pend N)} {cm : List (Nat × ConfCtx.Entry N)} {f : List (Nat × Option Bool)} {ok : Bool}
    (hist : Hist x') (ex : Ex x') (out : Out G (s.cx i) pd cm x') (lens : pd.length = f.length) (inl : ∀ q ∈ pd, q.inLog = true)
    (items : ∀ z ∈ pd.zip f, It p c0 s.cl i (s.cl.node i) z) (comm : ∀ y ∈ cm, ∃ k, Done p c0 s.cl i k y.1 y.2)
    (cle : ∀ y ∈ cm, y.1 ≤ (s.cl.node i).term)
    (hG : G → (s.cl.node i).state.leads = true → lastConfIdx (s.cl.node i).log ≤ (s.cl.node i).bb.lastCommitted) :
    ∃ s', put p c0 s i x' f ok = some s' ∧ After p c0 s i x' s' := by
  have hnd := hist.inv.2
  have hnd0 := h.hist.inv.2
  unfold put
  cases out with
  | quiet a1 a2 a3 a4 a5 a6 a7 a8 a9 =>
    rw [if_neg (by rw [a6]; exact Nat.lt_irrefl _)]
    rw [if_neg ?_]
    · refine ⟨_, rfl, .refl, updF_same .., ?_, fun j hj => ⟨rfl, updF_other _ _ hj, updF_other _ _ hj⟩⟩
      dsimp only
      rw [updF_same, updF_same]
      exact { hist, ex
              self := a1.trans h.self, role := a5.trans h.role, term := a2.trans h.term, conf := a3.trans h.conf, old := a4.trans h.old
              lens := by rw [a7]; exact lens
              inLog := by rw [a7]; exact inl
              idle := fun hl hi => (a9 hi).elim (h.idle hl) (fun g => hG g hl)
              items := by rw [a7]; exact items
              comm := by rw [a8]; exact comm
              cle := by rw [a8]; exact cle }
    · rw [Bool.and_eq_true, decide_eq_true_eq]
      rintro ⟨hl, hf⟩
      rcases (leads_iff h.role).mp hl with hh | hh <;> rw [a5, hh] at hf <;> cases hf
  | submit e a1 a2 a3 a4 a5 a6 a7 a8 a9 a10 a11 a12 a13 =>
    have hl : (s.cl.node i).state.leads = true := (leads_iff h.role).mpr (Or.inl a5)
    rw [if_pos (by rw [a7]; exact Nat.lt_succ_self _)]
    have hok : x'.conf.Nodup ∧ x'.old.Nodup := ⟨hnd.1, by rw [a4]; exact Follows.nodup a13 hnd0.1⟩
    have hmk : mkConf x'.conf x'.old = some ⟨x'.conf, x'.old, hok.1, hok.2⟩ := by unfold mkConf; rw [dif_pos hok]
    rw [hmk]
    generalize hcf : (⟨x'.conf, x'.old, hok.1, hok.2⟩ : Conf N) = cf
    have hcp : cf.peers = e.conf := by rw [← hcf]; exact a3
    have hco : cf.old = e.olds := by rw [← hcf]; exact a4
    dsimp only
    have hpre : cpre p c0 s.cl (.changeConf i cf) = true := by
      show ((s.cl.node i).state.leads && decide (lastConfIdx (s.cl.node i).log ≤ (s.cl.node i).bb.lastCommitted) &&
        confStepOk (confOf c0 (s.cl.node i).log) cf) = true
      rw [hl, Bool.true_and, Bool.and_eq_true, decide_eq_true_eq]
      refine ⟨a11.elim (h.idle hl) (fun g => hG g hl), follows_ok ?_ hcp hco⟩
      rw [← h.conf, ← h.old]; exact a13
    obtain ⟨cl', hcl⟩ : ∃ cl', cstep p c0 s.cl (.changeConf i cf) = some cl' := ⟨_, by unfold cstep; rw [if_pos hpre]⟩
    rw [hcl]
    obtain ⟨_, hn, ho⟩ := cstep_some hcl
    replace hn : cl'.node i = sAppendOwn (s.cl.node i) cf [⟨(s.cl.node i).term, .conf cf⟩] := hn
    have hs : CSteps p c0 s.cl cl' := .tail _ .refl hcl
    refine ⟨_, rfl, hs, updF_same .., ?_, fun j hj => ⟨ho j hj, updF_other _ _ hj, updF_other _ _ hj⟩⟩
    dsimp only
    rw [updF_same, updF_same, hn]
    have hlog : (sAppendOwn (s.cl.node i) cf [⟨(s.cl.node i).term, .conf cf⟩]).log = (s.cl.node i).log ++ [⟨(s.cl.node i).term, .conf cf⟩] := rfl
    have hst : (sAppendOwn (s.cl.node i) cf [⟨(s.cl.node i).term, .conf cf⟩]).state = (s.cl.node i).state := rfl
    have htm : (sAppendOwn (s.cl.node i) cf [⟨(s.cl.node i).term, .conf cf⟩]).term = (s.cl.node i).term := rfl
    generalize sAppendOwn (s.cl.node i) cf [⟨(s.cl.node i).term, .conf cf⟩] = c' at hlog hst htm
    have hco' : confOf c0 c'.log = cf := by rw [hlog, confOf_concat]; rfl
    exact { hist, ex
            self := a1.trans h.self, role := by rw [a6, hst, ← h.role, a5]
            term := by rw [a2, h.term, htm]
            conf := by rw [hco', hcp]; exact a3
            old := by rw [hco', hco]; exact a4
            lens := by rw [a8]; simp [lens]
            inLog := by
              rw [a8]; intro q hq
              rcases List.mem_append.mp hq with hq | hq
              · exact inl q hq
              · rw [List.mem_singleton] at hq; rw [hq]
            idle := fun _ hi => absurd hi a12
            items := by
              rw [a8]; intro z hz
              rcases mem_zip_snoc lens hz with hz | rfl
              · have h1 := items z hz
                have h2 : z.1.term < (s.cl.node i).term := by
                  rw [← h.term]; exact a10 _ (List.of_mem_zip hz).1
                refine h1.past hs (by rw [htm]; exact h2) (fun hn => ?_)
                have := (h1.opened hn).2
                omega
              · refine ⟨fun _ _ => ⟨Nat.succ_pos _, ?_, cf, ?_, hcp, hco⟩, fun _ => ⟨by rw [hst]; exact hl, by rw [htm]; exact h.term⟩, fun hz => (by cases hz), fun hz => (by cases hz)⟩
                · dsimp only
                  rw [hlog, lastConfIdx_conf rfl]
                · dsimp only
                  rw [hlog, h.term, Nat.add_sub_cancel, List.getElem?_append_right (Nat.le_refl _), Nat.sub_self]
                  rfl
            comm := by
              rw [a9]; intro y hy
              exact (comm y hy).imp fun _ hk => hk.step hs
            cle := by rw [a9, htm]; exact cle }
  | down a1 a2 a3 a4 a5 a6 a7 a8 a9 =>
    have hl : (s.cl.node i).state.leads = true := (leads_iff h.role).mpr (Or.inl a5)
    rw [if_neg (by rw [a7]; exact Nat.lt_irrefl _)]
    rw [if_pos (by rw [hl, a6]; rfl)]
    have hpre : cpre p c0 s.cl (.stepDown i x'.term ok) = true := by
      show decide ((s.cl.node i).term ≤ x'.term) = true
      rw [a2, h.term]; exact decide_eq_true (Nat.le_refl _)
    obtain ⟨cl', hcl⟩ : ∃ cl', cstep p c0 s.cl (.stepDown i x'.term ok) = some cl' := ⟨_, by unfold cstep; rw [if_pos hpre]⟩
    rw [hcl]
    obtain ⟨_, hn, ho⟩ := cstep_some hcl
    replace hn : cl'.node i = sStepDown (s.cl.node i) x'.term ok := hn
    have hs : CSteps p c0 s.cl cl' := .tail _ .refl hcl
    refine ⟨_, rfl, hs, updF_same .., ?_, fun j hj => ⟨ho j hj, updF_other _ _ hj, updF_other _ _ hj⟩⟩
    dsimp only
    rw [updF_same, updF_same, hn]
    have hlog : (sStepDown (s.cl.node i) x'.term ok).log = (s.cl.node i).log := rfl
    have hst : (sStepDown (s.cl.node i) x'.term ok).state = .follower := rfl
    have htm : (sStepDown (s.cl.node i) x'.term ok).term = (s.cl.node i).term := by
      show (if decide ((s.cl.node i).term < x'.term) = true then x'.term else (s.cl.node i).term) = _
      rw [if_neg]
      rw [a2, h.term, decide_eq_true_eq]; exact Nat.lt_irrefl _
    generalize sStepDown (s.cl.node i) x'.term ok = c' at hlog hst htm
    have hnl : c'.state.leads = false := by rw [hst]; rfl
    exact { hist, ex
            self := a1.trans h.self, role := by rw [a6, hst]; rfl
            term := by rw [a2, h.term, htm]
            conf := by rw [a3, h.conf, hlog]
            old := by rw [a4, h.old, hlog]
            lens := by rw [a8, List.length_map]; exact lens
            inLog := by rw [a8]; exact inl
            idle := fun h' => (by rw [hnl] at h'; cases h')
            items := by
              rw [a8]; intro z hz
              obtain ⟨b, hb, he⟩ := mem_zip_map hz
              have := (items _ hb).off hs hnl
              rw [show z = (z.1, mark c' b) from Prod.ext rfl he]
              exact this
            comm := by
              rw [a9]; intro y hy
              exact (comm y hy).imp fun _ hk => hk.step hs
            cle := by rw [a9, htm]; exact cle }

/-- A call other than a closure. -/
theorem call_ni {s : FSys N D} {i : N} (hr : CReachable p c0 s.cl) (h : NI p c0 s.cl i (s.cl.node i) (s.cx i) (s.fate i))
    {x' : State N} {ok : Bool} (hist : Hist x') (out : Out False (s.cx i) (s.cx i).pend (s.cx i).comm x' ∧ Ex x') :
    ∃ s', put p c0 s i x' (s.fate i) ok = some s' ∧ After p c0 s i x' s' :=
  put_ni hr h hist out.2 out.1 h.lens h.inLog h.items h.comm h.cle (fun g => g.elim)

theorem done_ni {s : FSys N D} {i : N} (hr : CReachable p c0 s.cl) (h : NI p c0 s.cl i (s.cl.node i) (s.cx i) (s.fate i))
    {k idx : Nat} {b ok : Bool} (hk : (s.fate i)[k]? = some (idx, some b)) :
    ∃ s', put p c0 s i ((s.cx i).entryDone k b true) ((s.fate i).eraseIdx k) ok = some s' ∧
      After p c0 s i ((s.cx i).entryDone k b true) s' := by
  have hlt : k < (s.cx i).pend.length := by
    rw [h.lens]
    exact (List.getElem?_eq_some_iff.mp hk).1
  obtain ⟨q, hq⟩ : ∃ q, (s.cx i).pend[k]? = some q := ⟨_, List.getElem?_eq_getElem hlt⟩
  have hz : (q, (idx, some b)) ∈ (s.cx i).pend.zip (s.fate i) := by
    apply List.mem_of_getElem? (i := k)
    rw [List.getElem?_zip_eq_some]
    exact ⟨hq, hk⟩
  have hit := h.items _ hz
  have hin := h.inLog q (List.mem_of_getElem? hq)
  obtain ⟨o1, o2⟩ := entryDone_out h.hist.inv.1 h.ex k b hq hin
  refine put_ni hr h (h.hist.entryDone k b true) o2 o1 ?_ (fun z hz => h.inLog z ((List.eraseIdx_sublist ..).subset hz)) ?_ ?_ ?_ ?_
  · rw [List.length_eraseIdx, List.length_eraseIdx, h.lens]
  · intro z hz
    rw [zip_eraseIdx] at hz
    exact h.items z ((List.eraseIdx_sublist ..).subset hz)
  · intro y hy
    cases b with
    | false => exact h.comm y hy
    | true =>
      rw [if_pos rfl] at hy
      rcases List.mem_cons.mp hy with rfl | hy
      · exact ⟨idx, hit.done rfl⟩
      · exact h.comm y hy
  · intro y hy
    cases b with
    | false => exact h.cle y hy
    | true =>
      rw [if_pos rfl] at hy
      rcases List.mem_cons.mp hy with rfl | hy
      · rw [← h.term]; exact h.hist.inv.1.base.pendLe q (List.mem_of_getElem? hq)
      · exact h.cle y hy
  · rintro ⟨g1, g2, g3⟩ hl
    subst g1
    have ht : q.term = (s.cl.node i).term := g2.trans h.term
    rw [← (hit.here hl ht).2.1]
    exact hit.cur rfl hl ht

theorem stepDown_fields {x : State N} (hr : x.role ≠ .down) (t : Nat) :
    (x.stepDown t).self = x.self ∧ (x.stepDown t).term = (if t > x.term then t else x.term) ∧ (x.stepDown t).role = .follower ∧
    (x.stepDown t).pend = x.pend ∧ (x.stepDown t).comm = x.comm ∧ (x.stepDown t).stage = .none := by
  unfold State.stepDown
  rw [if_neg hr]
  obtain ⟨e1, e2, e3, e4, e5, e6, e7, e8, e9⟩ := reset_fields ({ x with role := .follower } : State N) none
  dsimp only
  exact ⟨e1, rfl, e5, e7, e8, e9⟩

theorem roleOf_ne_down (t : St) : roleOfSt t ≠ .down := by cases t <;> decide

/-- A node that is a follower afterwards. -/
theorem live_fol {cl cl' : CSys N D} {i : N} {c : Srv N D} {x : State N} {f : List (Nat × Option Bool)} {addOk : N → Bool}
    (hs : CSteps p c0 cl cl') (h : NI p c0 cl i c x f) (hf : (cl'.node i).state = .follower) (ht : c.term ≤ (cl'.node i).term) :
    NI p c0 cl' i (cl'.node i) (cxLive c0 c (cl'.node i) addOk x) (f.map (mark (cl'.node i))) := by
  generalize cl'.node i = c' at hf ht ⊢
  have hnl : c'.state.leads = false := by rw [hf]; rfl
  have hy : ∃ y : State N, (if c.state ≠ .follower ∨ c.term < c'.term then x.stepDown c'.term else x) = y ∧ Hist y ∧ Ex y ∧ y.self = i ∧
      y.role = .follower ∧ y.term = c'.term ∧ y.pend = x.pend ∧ y.comm = x.comm := by
    refine ⟨_, rfl, ?_⟩
    by_cases hc : c.state ≠ .follower ∨ c.term < c'.term
    · rw [if_pos hc]
      obtain ⟨e1, e2, e3, e4, e5, e6⟩ := stepDown_fields (x := x) (by rw [h.role]; exact roleOf_ne_down _) c'.term
      refine ⟨h.hist.stepDown _, Ex.none e6, e1.trans h.self, e3, ?_, e4, e5⟩
      rw [e2, h.term]
      split <;> omega
    · rw [if_neg hc]
      have h1 : c.state = .follower := Decidable.not_not.mp fun hx => hc (Or.inl hx)
      have h2 : c'.term = c.term := by
        have : ¬ c.term < c'.term := fun hx => hc (Or.inr hx)
        omega
      exact ⟨h.hist, h.ex, h.self, by rw [h.role, h1]; rfl, by rw [h2]; exact h.term, rfl, rfl⟩
  unfold cxLive
  rw [hf]
  dsimp only
  obtain ⟨y, he, y1, y2, y3, y4, y5, y6, y7⟩ := hy
  rw [he]
  have hfo : y.follow (confOf c0 c'.log).peers (confOf c0 c'.log).old =
      { y with conf := (confOf c0 c'.log).peers, old := (confOf c0 c'.log).old } := by
    unfold State.follow; rw [if_pos y4]
  have hst : y.stage = .none := by
    have := y1.inv.1.phase
    unfold Phase at this
    rw [y4] at this
    exact this.stage
  have hex : Ex (y.follow (confOf c0 c'.log).peers (confOf c0 c'.log).old) := by
    rw [hfo]; exact Ex.none hst
  have hhist := y1.follow _ (confOf c0 c'.log).old (confOf c0 c'.log).nd
  rw [hfo] at hhist hex ⊢
  exact { hist := hhist, ex := hex
          self := y3
          role := by rw [hf]; exact y4
          term := y5
          conf := rfl
          old := rfl
          lens := by rw [List.length_map]; show y.pend.length = _; rw [y6]; exact h.lens
          inLog := by show ∀ q ∈ y.pend, _; rw [y6]; exact h.inLog
          idle := fun h' => (by rw [hnl] at h'; cases h')
          items := by
            show ∀ z ∈ y.pend.zip _, _
            rw [y6]; intro z hz
            obtain ⟨b, hb, he⟩ := mem_zip_map hz
            have := (h.items _ hb).off hs hnl
            rw [show z = (z.1, mark c' b) from Prod.ext rfl he]
            exact this
          comm := by
            show ∀ q ∈ y.comm, _
            rw [y7]; intro q hq
            exact (h.comm q hq).imp fun _ hk => hk.step hs
          cle := by
            show ∀ q ∈ y.comm, _
            rw [y7]; intro q hq
            exact Nat.le_trans (h.cle q hq) ht }

/-- The items of a node that does not lead, afterwards. -/
theorem items_off {cl cl' : CSys N D} {i : N} {c c' : Srv N D} {x : State N} {f : List (Nat × Option Bool)}
    (hs : CSteps p c0 cl cl') (h : NI p c0 cl i c x f) (hnl : c'.state.leads = false) :
    ∀ z ∈ x.pend.zip (f.map (mark c')), It p c0 cl' i c' z := by
  intro z hz
  obtain ⟨b, hb, he⟩ := mem_zip_map hz
  have := (h.items _ hb).off hs hnl
  rw [show z = (z.1, mark c' b) from Prod.ext rfl he]
  exact this

theorem items_lead {cl cl' : CSys N D} {i : N} {c : Srv N D} {x : State N} {f : List (Nat × Option Bool)}
    (hr : CReachable p c0 cl') (hs : CSteps p c0 cl cl') (h : NI p c0 cl i c x f) (hl : c.state.leads = true) (hl' : (cl'.node i).state.leads = true)
    (ht : (cl'.node i).term = c.term) {ds : List (Raft.Entry N D)} (hlog : (cl'.node i).log = c.log ++ ds) (hds : ∀ e ∈ ds, e.conf? = none)
    (hb : c.bb.lastCommitted ≤ (cl'.node i).bb.lastCommitted) :
    ∀ z ∈ x.pend.zip (f.map (mark (cl'.node i))), It p c0 cl' i (cl'.node i) z := by
  intro z hz
  obtain ⟨b, hz', he⟩ := mem_zip_map hz
  have := (h.items _ hz').lead hr hs hl hl' ht hlog hds hb
  rw [show z = (z.1, mark (cl'.node i) b) from Prod.ext rfl he]
  exact this

theorem becomeLeader_fields {x : State N} (hr : x.role = .candidate) (addOk : N → Bool) :
    ∃ e : ConfCtx.Entry N, e.conf = x.conf ∧ e.olds = x.old ∧ (x.becomeLeader addOk true).self = x.self ∧
      (x.becomeLeader addOk true).role = .leader ∧ (x.becomeLeader addOk true).term = x.term ∧
      (x.becomeLeader addOk true).conf = x.conf ∧ (x.becomeLeader addOk true).old = x.old ∧
      (x.becomeLeader addOk true).pend = x.pend ++ [⟨x.term, e, true⟩] ∧ (x.becomeLeader addOk true).comm = x.comm ∧
      ¬ Idle (x.becomeLeader addOk true) ∧ Ex (x.becomeLeader addOk true) := by
  unfold State.becomeLeader
  rw [if_pos hr]
  unfold State.flush
  dsimp only [State.check]
  cases ho : x.old with
  | nil =>
    refine ⟨⟨x.conf, none⟩, rfl, rfl, rfl, rfl, rfl, rfl, rfl, rfl, rfl, ?_, ?_, ?_⟩
    · rintro (h | h) <;> cases h
    · intro h; cases h
    · intro h; cases h
  | cons a l =>
    refine ⟨⟨x.conf, some x.old⟩, rfl, ?_, rfl, rfl, rfl, rfl, ?_, ?_, rfl, ?_, ?_, ?_⟩
    · exact ho
    · rfl
    · rw [ho]; rfl
    · rintro (h | h) <;> cases h
    · intro _ h; cases h
    · intro h; cases h

theorem restarts_follower {c : Srv N D} {a : CAct N D} (h : restarts p a.at c a = true) : (ceff p c0 c a).1.state = .follower := by
  cases a with
  | electB i f ok free =>
    have := electB_b (p := p) (c0 := c0) i c f ok free
    cases this with
    | same _ _ ha => exact absurd (show aborts p i c (.electB i f ok free) = true from h) (by rw [ha]; decide)
    | boot c1 hr ha => show (sElectB p c0 i c f ok free).1.state = _; rw [hr]; rfl
    | lead _ _ _ _ _ _ ha => exact absurd (show aborts p i c (.electB i f ok free) = true from h) (by rw [ha]; decide)
  | timer i v free =>
    have := timer_b (p := p) (c0 := c0) i c v free
    cases this with
    | same _ _ ha => exact absurd (show aborts p i c (.timer i v free) = true from h) (by rw [ha]; decide)
    | boot c1 hr ha => show (sTimer p c0 i c v free).1.state = _; rw [hr]; rfl
    | lead _ _ _ _ _ _ ha => exact absurd (show aborts p i c (.timer i v free) = true from h) (by rw [ha]; decide)
  | electDie i f => rfl
  | crash i => rfl
  | elect i => cases h
  | timeoutNow i t st ok => cases h
  | voteRes i r g rj d rt pt ok => cases h
  | voteReq i t cand claim dis => cases h
  | voteReqB i f free ok g => cases h
  | stepDown i t ok => cases h
  | transfer i => cases h
  | transferTimeout i => cases h
  | apply i ds => cases h
  | changeConf i cf => cases h
  | replSend i to prev => cases h
  | replRead i f cnt => cases h
  | replRes i who first upTo n => cases h
  | replAck i f => cases h
  | append i t srv prev pt es cm ok gone => cases h
  | sendIS i to => cases h
  | install i t srv K ok => cases h
  | disk i => cases h
  | fsm i => cases h
  | saveSnap i k => cases h
  | copied i => cases h
  | loaded i => cases h
  | dlDrop i => cases h

/-- A leader goes on: only the role has changed. -/
theorem live_lead {cl cl' : CSys N D} {i : N} {c : Srv N D} {x : State N} {f : List (Nat × Option Bool)}
    (hr : CReachable p c0 cl') (hs : CSteps p c0 cl cl') (h : NI p c0 cl i c x f) (hl : c.state.leads = true) (hl' : (cl'.node i).state.leads = true)
    (ht : (cl'.node i).term = c.term) {ds : List (Raft.Entry N D)} (hlog : (cl'.node i).log = c.log ++ ds) (hds : ∀ e ∈ ds, e.conf? = none)
    (hb : c.bb.lastCommitted ≤ (cl'.node i).bb.lastCommitted) {x' : State N} (hx : x' = { x with role := roleOfSt (cl'.node i).state })
    (hh : Hist x') : NI p c0 cl' i (cl'.node i) x' (f.map (mark (cl'.node i))) := by
  subst hx
  exact { hist := hh
          ex := ⟨h.ex.joint, h.ex.catching⟩
          self := h.self, role := rfl, term := h.term.trans ht.symm
          conf := by rw [hlog, confOf_datas c0 hds]; exact h.conf
          old := by rw [hlog, confOf_datas c0 hds]; exact h.old
          lens := by rw [List.length_map]; exact h.lens
          inLog := h.inLog
          idle := fun _ hi => by
            rw [hlog, lastConfIdx_datas hds]
            exact Nat.le_trans (h.idle hl hi) hb
          items := by
            have := items_lead hr hs h hl hl' ht hlog hds hb
            exact this
          comm := fun q hq => (h.comm q hq).imp fun _ hk => hk.step hs
          cle := fun q hq => by rw [ht]; exact h.cle q hq }

theorem srv_ni (hp : COk p) (hck : p.checkAborts = true) {s : FSys N D} {a : CAct N D} {addOk : N → Bool} (hr : CReachable p c0 s.cl)
    (h : NI p c0 s.cl a.at (s.cl.node a.at) (s.cx a.at) (s.fate a.at)) (hb : barred s a = false) {cl' : CSys N D} (hc : cstep p c0 s.cl a = some cl') :
    NI p c0 cl' a.at (cl'.node a.at) (cxSrv p c0 (s.cl.node a.at) (cl'.node a.at) a addOk (s.cx a.at))
      (fateSrv p (s.cl.node a.at) (cl'.node a.at) a (s.fate a.at)) := by
  obtain ⟨hpre, hn, ho⟩ := cstep_some hc
  have hs : CSteps p c0 s.cl cl' := .tail _ .refl hc
  have hr' : CReachable p c0 cl' := ctrans hr hs
  unfold cxSrv fateSrv
  by_cases hre : restarts p a.at (s.cl.node a.at) a = true
  · rw [if_pos hre, if_pos hre]
    have hf := restarts_follower (c0 := c0) hre
    rw [← hn] at hf
    have hnl : (cl'.node a.at).state.leads = false := by rw [hf]; rfl
    exact { hist := .init _ _ _ _ (confOf c0 _).nd
            ex := Ex.none rfl
            self := rfl, role := by rw [hf]; rfl, term := rfl, conf := rfl, old := rfl, lens := rfl
            inLog := fun q hq => nomatch hq
            idle := fun h' => (by rw [hnl] at h'; cases h')
            items := fun z hz => nomatch hz
            comm := fun q hq => nomatch hq
            cle := fun q hq => nomatch hq }
  · rw [if_neg hre, if_neg hre]
    have hre' : restarts p a.at (s.cl.node a.at) a = false := by simpa using hre
    by_cases htr : ∃ j, a = .transfer j
    · obtain ⟨j, rfl⟩ := htr
      have hpre : decide ((s.cl.node j).state = .leader) = true := hpre
      have hl := of_decide_eq_true hpre
      replace hn : cl'.node j = { s.cl.node j with state := .transferring } := hn
      have hb : (s.cx j).busy = false := hb
      have h : NI p c0 s.cl j (s.cl.node j) (s.cx j) (s.fate j) := h
      show NI p c0 cl' j (cl'.node j) (cxLive c0 (s.cl.node j) (cl'.node j) addOk (s.cx j))
        ((if ((cl'.node j).state.leads && !(s.cl.node j).state.leads) = true then _ else s.fate j).map (mark (cl'.node j)))
      have hl' : (cl'.node j).state = .transferring := by rw [hn]
      have hlog : (cl'.node j).log = (s.cl.node j).log := by rw [hn]
      have htm : (cl'.node j).term = (s.cl.node j).term := by rw [hn]
      have hbb : (cl'.node j).bb = (s.cl.node j).bb := by rw [hn]
      rw [if_neg (by rw [hl]; simp [St.leads])]
      have hx : cxLive c0 (s.cl.node j) (cl'.node j) addOk (s.cx j) = (s.cx j).transfer true := by
        unfold cxLive
        rw [hl']
        dsimp only
        rw [if_pos hl]
      have hx2 : (s.cx j).transfer true = { s.cx j with role := roleOfSt (cl'.node j).state } := by
        unfold State.transfer
        rw [if_pos ⟨by rw [h.role, hl]; rfl, hb, rfl⟩, hl']
        rfl
      refine live_lead (ds := []) hr' hs h (by rw [hl]; rfl) (by rw [hl']; rfl) htm (by rw [hlog, List.append_nil]) (fun e he => nomatch he)
        (by rw [hbb]; exact Nat.le_refl _) (hx.trans hx2) ?_
      rw [hx]; exact h.hist.transfer true
    · have hfr := frame (c0 := c0) hck (pre_reach hp hr a.at) hpre hre' (fun j cf he => by subst he; cases hb) (fun j he => htr ⟨j, he⟩)
      rw [← hn] at hfr
      cases hfr with
      | lead hl hl' st ht ds hlog hds hbb =>
        rw [if_neg (by rw [hl]; simp)]
        have hx : ∃ y, cxLive c0 (s.cl.node a.at) (cl'.node a.at) addOk (s.cx a.at) = y ∧ Hist y ∧ y = { s.cx a.at with role := roleOfSt (cl'.node a.at).state } := by
          refine ⟨_, rfl, ?_⟩
          have heta : ∀ t, (s.cx a.at).role = t → s.cx a.at = { s.cx a.at with role := t } := fun t ht => by rw [← ht]
          unfold cxLive
          rcases st with st | st
          · rw [st]
            cases hcs : (s.cl.node a.at).state with
            | leader =>
              dsimp only
              rw [if_pos rfl]
              exact ⟨h.hist, heta _ (by rw [h.role, hcs])⟩
            | transferring =>
              dsimp only
              rw [if_neg (by decide)]
              exact ⟨h.hist, heta _ (by rw [h.role, hcs])⟩
            | candidate => rw [hcs] at hl; cases hl
            | follower => rw [hcs] at hl; cases hl
          · rw [st]
            dsimp only
            cases hcs : (s.cl.node a.at).state with
            | leader =>
              rw [if_pos rfl]
              exact ⟨h.hist, heta _ (by rw [h.role, hcs])⟩
            | transferring =>
              rw [if_neg (by decide), if_pos rfl]
              refine ⟨h.hist.transferTimeout _, ?_⟩
              unfold State.transferTimeout
              rw [if_pos ⟨h.term.symm, by rw [h.role, hcs]; rfl⟩]
              rfl
            | candidate => rw [hcs] at hl; cases hl
            | follower => rw [hcs] at hl; cases hl
        obtain ⟨y, hy1, hy2, hy3⟩ := hx
        rw [hy1]
        exact live_lead hr' hs h hl hl' ht hlog hds hbb hy3 hy2
      | led hcs hcs' ht hlog =>
        have hnl : (s.cl.node a.at).state.leads = false := by rw [hcs]; rfl
        have hl' : (cl'.node a.at).state.leads = true := by rw [hcs']; rfl
        rw [if_pos (by rw [hnl, hl']; rfl)]
        have hrc : (s.cx a.at).role = .candidate := by rw [h.role, hcs]; rfl
        have hx : cxLive c0 (s.cl.node a.at) (cl'.node a.at) addOk (s.cx a.at) = (s.cx a.at).becomeLeader addOk true := by
          unfold cxLive
          rw [hcs', hcs]
          dsimp only
          rw [if_neg (by decide), if_neg (by decide)]
        rw [hx]
        have hhist := h.hist.becomeLeader addOk true
        obtain ⟨e, e1, e2, e3, e4, e5, e6, e7, e8, e9, e10, e11⟩ := becomeLeader_fields hrc addOk
        have hnp : NoPend (s.cx a.at) := by
          have := h.hist.inv.1.phase
          unfold Phase at this
          rw [hrc] at this
          exact this.2.1
        generalize (s.cx a.at).becomeLeader addOk true = y at hhist e3 e4 e5 e6 e7 e8 e9 e10 e11 ⊢
        have hco : confOf c0 (cl'.node a.at).log = confOf c0 (s.cl.node a.at).log := by rw [hlog, confOf_concat]; rfl
        exact { hist := hhist, ex := e11
                self := e3.trans h.self, role := by rw [e4, hcs']; rfl
                term := by rw [e5, h.term, ht]
                conf := by rw [e6, hco]; exact h.conf
                old := by rw [e7, hco]; exact h.old
                lens := by rw [e8]; simp [h.lens]
                inLog := by
                  rw [e8]; intro q hq
                  rcases List.mem_append.mp hq with hq | hq
                  · exact h.inLog q hq
                  · rw [List.mem_singleton] at hq; rw [hq]
                idle := fun _ hi => absurd hi e10
                items := by
                  rw [e8]; intro z hz
                  obtain ⟨b, hz, hzb⟩ := mem_zip_map hz
                  rw [show z = (z.1, mark (cl'.node a.at) b) from Prod.ext rfl hzb]
                  rcases mem_zip_snoc h.lens hz with hz | hz
                  · have h1 := h.items _ hz
                    have h2 : z.1.term < (cl'.node a.at).term := by
                      rw [ht, ← h.term]; exact hnp _ (List.of_mem_zip hz).1
                    have h3 : b.2 ≠ none := fun hn => by
                      have := (h1.opened hn).1
                      rw [hnl] at this; cases this
                    have h4 : mark (cl'.node a.at) b = b := by
                      unfold mark
                      split
                      · rfl
                      · rename_i hn; exact absurd hn h3
                    rw [h4]
                    exact h1.past hs h2 h3
                  · obtain ⟨hz1, hz2⟩ := Prod.mk.inj hz
                    rw [hz1]
                    have hlen : b.1 = (cl'.node a.at).log.length := by rw [hz2]
                    have hbn : b.2 = none := by rw [hz2]
                    have hent : EntryIs (s.cx a.at).term e (cl'.node a.at).log[b.1 - 1]? := by
                      refine ⟨confOf c0 (s.cl.node a.at).log, ?_, ?_, ?_⟩
                      · rw [hlen, hlog, List.length_append, List.length_singleton, Nat.add_sub_cancel,
                          List.getElem?_append_right (Nat.le_refl _), Nat.sub_self, h.term]
                        rfl
                      · rw [e1, h.conf]
                      · rw [e2, h.old]
                    have hpos : 0 < b.1 := by rw [hlen, hlog, List.length_append]; exact Nat.succ_pos _
                    have hidx : b.1 = lastConfIdx (cl'.node a.at).log := by
                      rw [hlen, hlog, lastConfIdx_conf rfl, List.length_append]; rfl
                    unfold mark
                    rw [hbn]
                    dsimp only
                    rw [hl', if_pos rfl]
                    by_cases hle : b.1 ≤ (cl'.node a.at).bb.lastCommitted
                    · rw [if_pos hle]
                      exact ⟨fun _ _ => ⟨hpos, hidx, hent⟩, fun hn => (by cases hn), fun _ _ _ => hle,
                        fun _ => ⟨cl', hr', .refl, hl', by rw [ht, h.term], hpos, hle, hent⟩⟩
                    · rw [if_neg hle]
                      exact ⟨fun _ _ => ⟨hpos, hidx, hent⟩, fun _ => ⟨hl', by rw [ht, h.term]⟩,
                        fun hn => (by rw [hbn] at hn; cases hn), fun hn => (by rw [hbn] at hn; cases hn)⟩
                comm := by
                  rw [e9]; intro q hq
                  exact (h.comm q hq).imp fun _ hk => hk.step hs
                cle := by rw [e9, ht]; exact h.cle }
      | cand hcs hcs' ht hlog =>
        have hnl' : (cl'.node a.at).state.leads = false := by rw [hcs']; rfl
        rw [if_neg (by rw [hnl']; simp)]
        have hx : cxLive c0 (s.cl.node a.at) (cl'.node a.at) addOk (s.cx a.at) = s.cx a.at := by
          unfold cxLive
          rw [hcs']
          dsimp only
          rw [if_neg (by rw [ht]; exact Nat.lt_irrefl _)]
        rw [hx]
        exact { hist := h.hist, ex := h.ex, self := h.self
                role := by rw [h.role, hcs, hcs'], term := h.term.trans ht.symm
                conf := by rw [hlog]; exact h.conf
                old := by rw [hlog]; exact h.old
                lens := by rw [List.length_map]; exact h.lens
                inLog := h.inLog
                idle := fun h' => (by rw [hnl'] at h'; cases h')
                items := by
                  have := items_off hs h hnl'
                  exact this
                comm := fun q hq => (h.comm q hq).imp fun _ hk => hk.step hs
                cle := fun q hq => by rw [ht]; exact h.cle q hq }
      | elect hcs hcs' ht hlog hm =>
        have hnl' : (cl'.node a.at).state.leads = false := by rw [hcs']; rfl
        rw [if_neg (by rw [hnl']; simp)]
        have hro : (s.cx a.at).role = .follower ∨ (s.cx a.at).role = .candidate := by
          rw [h.role]
          cases hst : (s.cl.node a.at).state <;> rw [hst] at hcs <;> first | (exact absurd hcs (by decide)) | simp [roleOfSt]
        have hx : cxLive c0 (s.cl.node a.at) (cl'.node a.at) addOk (s.cx a.at) = (s.cx a.at).elect := by
          unfold cxLive
          rw [hcs']
          dsimp only
          rw [if_pos (by rw [ht]; exact Nat.lt_succ_self _)]
        have hx2 : (s.cx a.at).elect = { s.cx a.at with role := .candidate, term := (s.cx a.at).term + 1 } := by
          unfold State.elect
          rw [if_pos ⟨hro, by rw [h.self, h.conf, h.old]; exact hm⟩]
        have hst : (s.cx a.at).stage = .none := by
          have := h.hist.inv.1.phase
          unfold Phase at this
          rcases hro with hro | hro <;> rw [hro] at this
          · exact this.stage
          · exact this.1.stage
        have hhist := h.hist.elect
        rw [hx]
        rw [hx2] at hhist ⊢
        exact { hist := hhist, ex := Ex.none hst, self := h.self
                role := by rw [hcs']; rfl
                term := by rw [ht, ← h.term]
                conf := by rw [hlog]; exact h.conf
                old := by rw [hlog]; exact h.old
                lens := by rw [List.length_map]; exact h.lens
                inLog := h.inLog
                idle := fun h' => (by rw [hnl'] at h'; cases h')
                items := by
                  have := items_off hs h hnl'
                  exact this
                comm := fun q hq => (h.comm q hq).imp fun _ hk => hk.step hs
                cle := fun q hq => by rw [ht]; exact Nat.le_succ_of_le (h.cle q hq) }
      | fol hf ht =>
        rw [if_neg (by rw [hf]; simp [St.leads])]
        exact live_fol hs h hf ht

theorem init_ni (i : N) : NI p c0 (initC : CSys N D) i (initC.node i) ((finit c0 : FSys N D).cx i) ((finit c0 : FSys N D).fate i) where
  hist := .init _ _ _ _ c0.nd
  ex := Ex.none rfl
  self := rfl
  role := rfl
  term := rfl
  conf := rfl
  old := rfl
  lens := rfl
  inLog := fun q hq => nomatch hq
  idle := fun h => (by cases h)
  items := fun z hz => nomatch hz
  comm := fun q hq => nomatch hq
  cle := fun q hq => nomatch hq

/-- One step: what the invariant says before and after, and when a call is possible. -/
theorem fstep_ni (hp : COk p) (hck : p.checkAborts = true) {s s' : FSys N D} (hr : CReachable p c0 s.cl)
    (h : ∀ i, NI p c0 s.cl i (s.cl.node i) (s.cx i) (s.fate i)) {a : FAct N D} (hs : fstep p c0 s a = some s') :
    CSteps p c0 s.cl s'.cl ∧ ∀ i, NI p c0 s'.cl i (s'.cl.node i) (s'.cx i) (s'.fate i) := by
  have key : ∀ {i : N} {x' : State N}, After p c0 s i x' s' →
      CSteps p c0 s.cl s'.cl ∧ ∀ i, NI p c0 s'.cl i (s'.cl.node i) (s'.cx i) (s'.fate i) := by
    intro i x' ha
    refine ⟨ha.steps, fun j => ?_⟩
    by_cases hj : j = i
    · subst hj; exact ha.ni
    · obtain ⟨e1, e2, e3⟩ := ha.other j hj
      rw [e1, e2, e3]
      exact (h j).step ha.steps
  have call : ∀ {i : N} {x' : State N} {ok : Bool}, Hist x' → Out False (s.cx i) (s.cx i).pend (s.cx i).comm x' ∧ Ex x' →
      put p c0 s i x' (s.fate i) ok = some s' →
      CSteps p c0 s.cl s'.cl ∧ ∀ i, NI p c0 s'.cl i (s'.cl.node i) (s'.cx i) (s'.fate i) := by
    intro i x' ok hh ho hput
    obtain ⟨s1, h1, h2⟩ := call_ni (ok := ok) hr (h i) hh ho
    rw [hput] at h1; cases h1
    exact key h2
  cases a with
  | srv a addOk =>
    unfold fstep at hs
    dsimp only at hs
    split at hs
    · cases hs
    · rename_i hb
      rw [Option.map_eq_some_iff] at hs
      obtain ⟨cl', hc, rfl⟩ := hs
      have hst : CSteps p c0 s.cl cl' := .tail _ .refl hc
      refine ⟨hst, fun j => ?_⟩
      dsimp only
      by_cases hj : j = a.at
      · subst hj
        rw [updF_same, updF_same]
        exact srv_ni hp hck hr (h a.at) (by simpa using hb) hc
      · rw [updF_other _ _ hj, updF_other _ _ hj, (cstep_some hc).2.2 j hj]
        exact (h j).step hst
  | change i newc addOk ok =>
    unfold fstep at hs
    dsimp only at hs
    split at hs
    · rename_i hn
      exact call ((h i).hist.change newc hn addOk true) (change_out (h i).hist.inv.1 (h i).hist.mem (h i).ex newc addOk) hs
    · cases hs
  | addPeer i x addOk ok =>
    exact call ((h i).hist.addPeer x addOk true) (change_out (h i).hist.inv.1 (h i).hist.mem (h i).ex _ addOk) hs
  | removePeer i x addOk ok =>
    exact call ((h i).hist.removePeer x addOk true) (change_out (h i).hist.inv.1 (h i).hist.mem (h i).ex _ addOk) hs
  | caughtUp i k c ok =>
    exact call ((h i).hist.caughtUp k c true) (caughtUp_out (h i).hist.inv.1 (h i).hist.mem (h i).ex k c) hs
  | entryDone i k ok =>
    unfold fstep at hs
    dsimp only at hs
    split at hs
    · rename_i idx b hk
      obtain ⟨s1, h1, h2⟩ := done_ni (ok := ok) hr (h i) hk
      rw [hs] at h1; cases h1
      exact key h2
    · cases hs

theorem freach_inv (hp : COk p) (hck : p.checkAborts = true) {s : FSys N D} (h : FReach p c0 s) :
    CReachable p c0 s.cl ∧ ∀ i, NI p c0 s.cl i (s.cl.node i) (s.cx i) (s.fate i) := by
  induction h with
  | init => exact ⟨.refl, init_ni⟩
  | step a _ hs ih =>
    obtain ⟨h1, h2⟩ := fstep_ni hp hck ih.1 ih.2 hs
    exact ⟨ctrans ih.1 h1, h2⟩

theorem fsteps_inv (hp : COk p) (hck : p.checkAborts = true) {s s' : FSys N D} (h : FReach p c0 s) (h' : FSteps p c0 s s') :
    FReach p c0 s' ∧ CSteps p c0 s.cl s'.cl := by
  induction h' with
  | refl => exact ⟨h, .refl⟩
  | tail a _ hs ih =>
    obtain ⟨h1, h2⟩ := freach_inv hp hck ih.1
    exact ⟨.step a ih.1 hs, ctrans ih.2 (fstep_ni hp hck h1 h2 hs).1⟩

end Braft.CN
