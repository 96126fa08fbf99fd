import Verif.Cluster.ConfNode
import Verif.Cluster.ConfNodeCtx
import Verif.Cluster.ConfNodeSrv
/-
Invariant of the cluster with its ConfigurationCtxs (Verif/Cluster/ConfNode.lean): both agree on role, term and
configuration, a change submits only when the previous configuration is committed, and a closure that is to run without
error belongs to an entry that a leader has committed.
-/
set_option linter.unusedVariables false
set_option linter.unusedSimpArgs false
set_option linter.unusedSectionVars false

namespace Braft.CN
open Braft.Raft Braft.Cl Braft.ConfCtx
variable {N D : Type} [DecidableEq N] [DecidableEq D] {c0 : Conf N} {p : CParams}

theorem ctrans {a b d : CSys N D} (h : CSteps p c0 a b) (h' : CSteps p c0 b d) : CSteps p c0 a d := by
  induction h' with
  | refl => exact h
  | tail x _ hx ih => exact .tail x ih hx

/-- The log entry is that of a submission. -/
def EntryIs (t : Nat) (e : ConfCtx.Entry N) (o : Option (Raft.Entry N D)) : Prop :=
  ∃ cf : Conf N, o = some ⟨t, .conf cf⟩ ∧ cf.peers = e.conf ∧ cf.old = e.olds

/-- The entry has been committed, at index `k`, by server `i` as leader of term `t`. -/
def Done (p : CParams) (c0 : Conf N) (cl : CSys N D) (i : N) (k t : Nat) (e : ConfCtx.Entry N) : Prop :=
  ∃ s0, CReachable p c0 s0 ∧ CSteps p c0 s0 cl ∧ (s0.node i).state.leads = true ∧ (s0.node i).term = t ∧ 0 < k ∧
    k ≤ (s0.node i).bb.lastCommitted ∧ EntryIs t e (s0.node i).log[k - 1]?

theorem Done.step {cl cl' : CSys N D} {i : N} {k t : Nat} {e : ConfCtx.Entry N} (h : Done p c0 cl i k t e) (hs : CSteps p c0 cl cl') :
    Done p c0 cl' i k t e := by
  obtain ⟨s0, h1, h2, h3⟩ := h
  exact ⟨s0, h1, ctrans h2 hs, h3⟩

/-- A closure that has not run. -/
structure It (p : CParams) (c0 : Conf N) (cl : CSys N D) (i : N) (c : Srv N D) (z : Pend N × (Nat × Option Bool)) : Prop where
  here : c.state.leads = true → z.1.term = c.term →
    0 < z.2.1 ∧ z.2.1 = lastConfIdx c.log ∧ EntryIs z.1.term z.1.entry c.log[z.2.1 - 1]?
  opened : z.2.2 = none → c.state.leads = true ∧ z.1.term = c.term
  cur : z.2.2 = some true → c.state.leads = true → z.1.term = c.term → z.2.1 ≤ c.bb.lastCommitted
  done : z.2.2 = some true → Done p c0 cl i z.2.1 z.1.term z.1.entry

structure NI (p : CParams) (c0 : Conf N) (cl : CSys N D) (i : N) (c : Srv N D) (x : State N) (f : List (Nat × Option Bool)) : Prop where
  hist : Hist x
  ex : Ex x
  self : x.self = i
  role : x.role = roleOfSt c.state
  term : x.term = c.term
  conf : x.conf = (confOf c0 c.log).peers
  old : x.old = (confOf c0 c.log).old
  lens : x.pend.length = f.length
  inLog : ∀ q ∈ x.pend, q.inLog = true
  idle : c.state.leads = true → Idle x → lastConfIdx c.log ≤ c.bb.lastCommitted
  items : ∀ z ∈ x.pend.zip f, It p c0 cl i c z
  comm : ∀ y ∈ x.comm, ∃ k, Done p c0 cl i k y.1 y.2
  cle : ∀ y ∈ x.comm, y.1 ≤ c.term

theorem It.step {cl cl' : CSys N D} {i : N} {c : Srv N D} {z : Pend N × (Nat × Option Bool)} (h : It p c0 cl i c z) (hs : CSteps p c0 cl cl') :
    It p c0 cl' i c z := ⟨h.here, h.opened, h.cur, fun hz => (h.done hz).step hs⟩

theorem NI.step {cl cl' : CSys N D} {i : N} {c : Srv N D} {x : State N} {f : List (Nat × Option Bool)} (h : NI p c0 cl i c x f) (hs : CSteps p c0 cl cl') :
    NI p c0 cl' i c x f :=
  { h with
    items := fun z hz => (h.items z hz).step hs
    comm := fun y hy => (h.comm y hy).imp fun _ hk => hk.step hs }

/-- Closures at a node that goes on as leader, without a new configuration. -/
theorem It.lead {cl cl' : CSys N D} {i : N} {c : Srv N D} {z : Pend N × (Nat × Option Bool)} (h : It p c0 cl i c z)
    (hr : CReachable p c0 cl') (hs : CSteps p c0 cl cl') (hl : c.state.leads = true) (hl' : (cl'.node i).state.leads = true)
    (ht : (cl'.node i).term = c.term) {ds : List (Raft.Entry N D)} (hlog : (cl'.node i).log = c.log ++ ds) (hds : ∀ e ∈ ds, e.conf? = none)
    (hb : c.bb.lastCommitted ≤ (cl'.node i).bb.lastCommitted) : It p c0 cl' i (cl'.node i) (z.1, mark (cl'.node i) z.2) := by
  have hfst : (mark (cl'.node i) z.2).1 = z.2.1 := by
    unfold mark; split
    · rfl
    · rw [hl', if_pos rfl]; split <;> rfl
  have hhere : z.1.term = c.term → 0 < z.2.1 ∧ z.2.1 = lastConfIdx (cl'.node i).log ∧ EntryIs z.1.term z.1.entry (cl'.node i).log[z.2.1 - 1]? := by
    intro hz
    obtain ⟨h1, h2, cf, h3, h4⟩ := h.here hl hz
    refine ⟨h1, by rw [hlog, lastConfIdx_datas hds]; exact h2, cf, ?_, h4⟩
    rw [hlog, List.getElem?_append_left]
    · exact h3
    · have := lastConfIdx_le c.log
      omega
  refine ⟨?_, ?_, ?_, ?_⟩
  · intro _ hz
    dsimp only at hz ⊢
    rw [hfst]
    exact hhere (hz.trans ht)
  · intro hz
    refine ⟨hl', ?_⟩
    have : z.2.2 = none := by
      unfold mark at hz
      split at hz
      · rename_i b hb'
        dsimp only at hz
        rw [hz] at hb'; cases hb'
      · assumption
    exact ((h.opened this).2).trans ht.symm
  · intro hz _ hzt
    dsimp only at hz hzt ⊢
    unfold mark at hz ⊢
    split at hz
    · rename_i b hb'
      have : z.2.2 = some true := hz
      exact Nat.le_trans (h.cur this hl (hzt.trans ht)) hb
    · rw [hl', if_pos rfl] at hz ⊢
      split at hz
      · rename_i hle
        rw [if_pos hle]; exact hle
      · rename_i hn _; rw [hn] at hz; cases hz
  · intro hz
    dsimp only at hz ⊢
    rw [hfst]
    unfold mark at hz
    split at hz
    · exact (h.done hz).step hs
    · rename_i hn
      rw [hl', if_pos rfl] at hz
      split at hz
      · rename_i hle
        have hzt := (h.opened hn).2
        obtain ⟨h1, h2, h3⟩ := hhere hzt
        exact ⟨cl', hr, .refl, hl', by rw [ht, hzt], h1, hle, h3⟩
      · rw [hn] at hz; cases hz

/-- Closures at a node that does not lead. -/
theorem It.off {cl cl' : CSys N D} {i : N} {c c' : Srv N D} {z : Pend N × (Nat × Option Bool)} (h : It p c0 cl i c z)
    (hs : CSteps p c0 cl cl') (hl' : c'.state.leads = false) : It p c0 cl' i c' (z.1, mark c' z.2) := by
  refine ⟨fun h' => (by rw [hl'] at h'; cases h'), ?_, fun _ h' => (by rw [hl'] at h'; cases h'), ?_⟩
  · intro hz
    exfalso
    dsimp only at hz
    unfold mark at hz
    split at hz
    · rename_i b hb; rw [hb] at hz; cases hz
    · rw [hl', if_neg (by decide)] at hz; cases hz
  · intro hz
    dsimp only at hz ⊢
    unfold mark at hz ⊢
    split at hz
    · rename_i b hb
      exact (h.done hz).step hs
    · rw [hl', if_neg (by decide)] at hz; cases hz

/-- Closures of earlier terms, at any time. -/
theorem It.past {cl cl' : CSys N D} {i : N} {c c' : Srv N D} {z : Pend N × (Nat × Option Bool)} (h : It p c0 cl i c z)
    (hs : CSteps p c0 cl cl') (ht : z.1.term < c'.term) (hn : z.2.2 ≠ none) : It p c0 cl' i c' z :=
  ⟨fun _ h' => absurd h' (Nat.ne_of_lt ht), fun h' => absurd h' hn, fun _ _ h' => absurd h' (Nat.ne_of_lt ht), fun hz => (h.done hz).step hs⟩

theorem mem_zip_map {α β γ : Type} {g : β → γ} {l : List α} {m : List β} {z : α × γ} (h : z ∈ l.zip (m.map g)) :
    ∃ b, (z.1, b) ∈ l.zip m ∧ z.2 = g b := by
  rw [List.zip_map_right] at h
  obtain ⟨⟨a, b⟩, h1, rfl⟩ := List.mem_map.mp h
  exact ⟨b, h1, rfl⟩

theorem zip_eraseIdx {α β : Type} : ∀ (l : List α) (m : List β) (k : Nat), (l.eraseIdx k).zip (m.eraseIdx k) = (l.zip m).eraseIdx k
  | [], m, k => by simp
  | a :: l, [], k => by cases k <;> simp
  | a :: l, b :: m, 0 => rfl
  | a :: l, b :: m, k + 1 => by
    show (a :: l.eraseIdx k).zip (b :: m.eraseIdx k) = (a, b) :: (l.zip m).eraseIdx k
    rw [List.zip_cons_cons, zip_eraseIdx l m k]

theorem mem_zip_snoc {α β : Type} {l : List α} {m : List β} {a : α} {b : β} {z : α × β} (hl : l.length = m.length)
    (h : z ∈ (l ++ [a]).zip (m ++ [b])) : z ∈ l.zip m ∨ z = (a, b) := by
  rw [List.zip_append hl] at h
  rcases List.mem_append.mp h with h | h
  · exact Or.inl h
  · exact Or.inr (by simpa using h)

theorem follows_ok {c : Conf N} {cf : Conf N} {e : ConfCtx.Entry N} (h : Follows c.peers c.old e) (h1 : cf.peers = e.conf) (h2 : cf.old = e.olds) :
    confStepOk c cf = true := by
  unfold confStepOk
  rcases h with ⟨h0, ⟨h3, h4⟩ | ⟨h3, h4⟩⟩ | ⟨h0, h3, h4⟩
  · rw [if_pos h0]
    have : cf.old = c.peers := h2.trans h3
    rw [this]
    simp [h4]
  · rw [if_pos h0]
    have ho : cf.old = [] := h2.trans h3
    rw [ho, ← h1] at *
    rw [← h1] at h4
    unfold differ at h4
    have hn1 := c.nd
    have hn2 := cf.nd
    simp only [Bool.or_eq_true, Bool.and_eq_true, decide_eq_true_eq, List.any_eq_true]
    refine Or.inl ⟨trivial, ?_⟩
    have hsub : ∀ {a b : List N}, (minus a b).length = 0 → ∀ y ∈ a, y ∈ b := by
      intro a b hz y hy
      apply Decidable.byContradiction; intro hyn
      have := mem_minus.mpr ⟨hy, hyn⟩
      rw [List.length_eq_zero_iff.mp hz] at this; cases this
    have hone : ∀ {a b : List N}, (minus a b).length = 1 → ∃ y, y ∈ a ∧ y ∉ b ∧ ∀ w, w ∈ a → w ∉ b → w = y := by
      intro a b hz
      obtain ⟨y, hy⟩ := List.length_eq_one_iff.mp hz
      have := mem_minus (a := a) (b := b) (p := y)
      rw [hy] at this
      have hm := this.mp (List.mem_singleton.mpr rfl)
      refine ⟨y, hm.1, hm.2, fun w hw hwn => ?_⟩
      have := (mem_minus (a := a) (b := b) (p := w)).mpr ⟨hw, hwn⟩
      rw [hy] at this
      exact List.mem_singleton.mp this
    have hcase : ((minus cf.peers c.peers).length = 0 ∧ (minus c.peers cf.peers).length = 1) ∨
        ((minus cf.peers c.peers).length = 1 ∧ (minus c.peers cf.peers).length = 0) := by omega
    rcases hcase with ⟨h5, h6⟩ | ⟨h5, h6⟩
    · obtain ⟨y, hy1, hy2, hy3⟩ := hone h6
      refine Or.inl ⟨y, hy1, ?_⟩
      rw [List.perm_ext_iff_of_nodup hn2 (hn1.erase y)]
      intro w
      rw [hn1.mem_erase_iff]
      constructor
      · intro hw; exact ⟨fun he => hy2 (he ▸ hw), hsub h5 w hw⟩
      · rintro ⟨hw1, hw2⟩
        apply Decidable.byContradiction; intro hn
        exact hw1 (hy3 w hw2 hn)
    · obtain ⟨y, hy1, hy2, hy3⟩ := hone h5
      refine Or.inr ⟨y, hy1, hy2, ?_⟩
      rw [List.perm_ext_iff_of_nodup (hn2.erase y) hn1]
      intro w
      rw [hn2.mem_erase_iff]
      constructor
      · rintro ⟨hw1, hw2⟩
        apply Decidable.byContradiction; intro hn
        exact hw1 (hy3 w hw2 hn)
      · intro hw; exact ⟨fun he => hy2 (he ▸ hw), hsub h6 w hw⟩
  · rw [if_neg h0]
    rw [h1, h2, h3, h4]
    simp

end Braft.CN
