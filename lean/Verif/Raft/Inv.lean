import Verif.Raft.Core
/-
The inductive invariant of the cluster model and general lemmas about it.
-/
set_option linter.unusedVariables false
set_option linter.unusedSimpArgs false
set_option linter.unusedSectionVars false

namespace Braft.Raft
variable {N D : Type} [DecidableEq N] [DecidableEq D]

def facts (g : Glob N D) : Facts N D :=
  { elections := g.elections, created := fun K => K ∈ g.created,
    ack := fun t v M => ⟨t, v, M⟩ ∈ g.acks }

/-- Every non-empty prefix was built by a leader. -/
def Good (g : Glob N D) (W : Log N D) : Prop := ∀ K, K ≠ [] → K <+: W → K ∈ g.created

/-- What `W1` held, `W2` still holds, unless a later leader was elected without it. -/
def Rel (es : List (Elec N D)) (W1 W2 : Log N D) : Prop :=
  ∀ K, K ≠ [] → K <+: W1 → K <+: W2 ∨ Culprit es K

/-- `X` is part of a prefix committed in a term at most `u`. -/
def Committed (g : Glob N D) (u : Nat) (X : Log N D) : Prop :=
  X = [] ∨ ∃ K ∈ g.commits, lastTerm K ≤ u ∧ X <+: K

/-- `P` holds at every step of a disk queue: `P` gets the stored log before the step. -/
def VOk (P : Log N D → Op N D → Prop) : Log N D → List (Op N D) → Prop
  | _, [] => True
  | d, op :: q => P d op ∧ VOk P (applyOp d op) q

def GoodAt (g : Glob N D) (t : Nat) (W : Log N D) : Prop := Good g W ∧ lastTerm W ≤ t

/-- What is known of a stable closure in the queue. -/
def Mark (g : Glob N D) (n : NodeSt N D) (d : Log N D) : Op N D → Prop
  | .push _ => True
  | .pop => True
  | .snap _ => True
  | .ackF t M c => M ≠ [] ∧ M <+: d ∧ (∃ L ∈ g.created, lastTerm L = t ∧ M <+: L) ∧ t ≤ n.term ∧
      (t = n.term → M <+: n.log) ∧ Committed g t (M.take (min c M.length))
  | .ackL M => M ≠ [] ∧ M <+: d ∧ M ∈ g.created ∧ (n.role = .leader → lastTerm M = n.term)

structure NodeInv (c0 : Conf N) (g : Glob N D) (i : N) (n : NodeSt N D) : Prop where
  pt : n.pterm ≤ n.term
  t1 : 1 ≤ n.pterm
  mem : n.log = drain n.disk n.queue
  hd : n.disk ∈ g.hist i
  gd : Good g n.disk
  vgood : VOk (fun d op => Good g (applyOp d op)) n.disk n.queue
  lt : lastTerm n.log ≤ n.term
  gh : ∀ O ∈ g.hist i, Good g O
  rh : ∀ O ∈ g.hist i, Rel g.elections O (snapMerge n.snap n.disk)
  vrel : VOk (fun d op => Rel g.elections d (applyOp d op)) n.disk n.queue
  vmark : VOk (Mark g n) n.disk n.queue
  lead : n.role = .leader → (∀ K ∈ g.created, lastTerm K = n.term → K <+: n.log) ∧
    ∃ r ∈ g.elections, r.node = i ∧ r.term = n.term ∧
      ∃ es, n.log = r.log ++ es ∧ ∀ e ∈ es, e.term = n.term
  el : ∀ r ∈ g.elections, r.node = i → r.term ≤ n.pterm ∧ (n.role = .candidate → r.term < n.term)
  v1 : ∀ v ∈ g.votes, v.voter = i →
    v.term < n.pterm ∨ (v.term = n.pterm ∧ (v.term ≤ 1 ∨ n.pvote = some v.cand))
  vmem : n.term = n.pterm → ∀ c, n.pvote = some c → n.vote = some c
  pv : ∀ c, n.pvote = some c → ∃ k, ⟨n.pterm, i, c, k⟩ ∈ g.votes
  mv : ∀ c, n.vote = some c → c ≠ i → ∃ k, ⟨n.term, i, c, k⟩ ∈ g.votes
  elec : ∀ T, n.elect = some T → T ≤ n.term ∧ (T = n.term → n.vote = some i ∧ n.pterm < T)
  cand : n.role = .candidate → lastTerm n.log < n.term ∧ n.bconf = confOf c0 n.log ∧
    (n.ready = true → n.pterm = n.term ∧ n.pvote = some i ∧ noAckL n.queue = true)
  vf : ∀ f ∈ n.vframes,
    Msg.rv f.reqTerm f.cand f.claim ∈ g.msgs ∧ f.savedTerm ≤ f.reqTerm ∧ f.cand ≠ i
  cl : n.commit ≤ n.log.length
  cc : Committed g n.term (n.log.take n.commit)
  ap : n.applied ≤ n.log.length
  ac : Committed g n.term (n.log.take n.applied)
  sn : n.snap <+: n.log
  sp : n.snap <+: n.psnap
  cs : Committed g n.pterm n.psnap
  sa : n.snap.length ≤ n.applied
  dlc : ∀ K, n.dl = some K → Committed g n.term K ∧ n.snap.length < K.length
  dlf : n.dl ≠ none → n.role = .follower
  smi : n.sm = n.log.take n.applied

/-- An AppendEntries message carries a stretch of the log of its term's leader. -/
def AeOK (g : Glob N D) (t prev pt : Nat) (es : List (Entry N D)) (c : Nat) : Prop :=
  ∃ L ∈ g.created, lastTerm L = t ∧ ∃ P, P.length = prev ∧ lastTerm P = pt ∧ P ++ es <+: L ∧
    Committed g t ((P ++ es).take (min c (prev + es.length)))

/-- A success answer: durable, or about a prefix already committed. -/
def ArOK (g : Glob N D) (t : Nat) (v : N) (m : Nat) : Prop :=
  ∃ M, M.length = m ∧ M ≠ [] ∧ (∃ L ∈ g.created, lastTerm L = t ∧ M <+: L) ∧
    (⟨t, v, M⟩ ∈ g.acks ∨ Committed g t M)

structure GBase (c0 : Conf N) (g : Glob N D) : Prop where
  chain : ∀ K1 ∈ g.created, ∀ K2 ∈ g.created, lastTerm K1 = lastTerm K2 → K1 <+: K2 ∨ K2 <+: K1
  closed : ∀ K ∈ g.created, Good g K
  mono : ∀ K ∈ g.created, ∀ K', K' <+: K → lastTerm K' ≤ lastTerm K
  origin : ∀ K ∈ g.created, ∃ r ∈ g.elections, Orig r K
  elog : ∀ J r, g.elections[J]? = some r → ∀ K, K ≠ [] → K <+: r.log →
    K ∈ g.created ∧ ∃ r' ∈ g.elections.take J, Orig r' K
  elt : ∀ r ∈ g.elections, lastTerm r.log < r.term
  change : ∀ K0 e, K0 ++ [e] ∈ g.created → confOf c0 (K0 ++ [e]) ≠ confOf c0 K0 →
    ∃ Q, Q ≠ [] ∧ Q <+: K0 ∧ lastTerm Q = e.term ∧ Direct (facts g) c0 Q ∧
      (∀ K', Q <+: K' → K' <+: K0 → confOf c0 K' = confOf c0 Q) ∧
      Adj (confOf c0 Q) (confOf c0 (K0 ++ [e]))
  el : ∀ J r, g.elections[J]? = some r → ∃ S : N → Bool, (confOf c0 r.log).Quorum S ∧
    (∀ v, S v = true → ∃ k, ⟨r.term, v, r.node, k⟩ ∈ g.votes) ∧
    ∀ v, S v = true → ∀ t M, ⟨t, v, M⟩ ∈ g.acks → t < r.term → ∀ K, K ≠ [] → K <+: M →
      K <+: r.log ∨ Culprit (g.elections.take J) K
  vuniq : ∀ v ∈ g.votes, ∀ v' ∈ g.votes, v.term = v'.term → v.voter = v'.voter → v.cand = v'.cand
  vk : ∀ v ∈ g.votes, v.before ≤ g.elections.length
  vinv : ∀ v ∈ g.votes, ∀ t M, ⟨t, v.voter, M⟩ ∈ g.acks → t < v.term → ∀ K, K ≠ [] → K <+: M →
    (∃ O ∈ g.hist v.cand, K <+: O) ∨ Culprit (g.elections.take v.before) K
  ak : ∀ t v M, ⟨t, v, M⟩ ∈ g.acks → M ≠ [] ∧ (∃ O ∈ g.hist v, M <+: O) ∧
    ∃ L ∈ g.created, lastTerm L = t ∧ M <+: L
  rv : ∀ t c cl, Msg.rv t c cl ∈ g.msgs → ∃ O ∈ g.hist c, cl = lastId O ∧ 2 ≤ t
  vr : ∀ t v c, Msg.vr t v c ∈ g.msgs → ∃ k, ⟨t, v, c, k⟩ ∈ g.votes
  ae : ∀ t prev pt es c, Msg.ae t prev pt es c ∈ g.msgs → AeOK g t prev pt es c
  ar : ∀ t v m, Msg.ar t v m ∈ g.msgs → ArOK g t v m
  com : ∀ K ∈ g.commits, K ∈ g.created ∧
    ∃ K', Direct (facts g) c0 K' ∧ lastTerm K' = lastTerm K ∧ K <+: K'
  is : ∀ t K, Msg.is t K ∈ g.msgs → Committed g t K
  app : ∀ i n e, (i, n, e) ∈ g.applies → 1 ≤ n ∧ ∃ K ∈ g.commits, K[n - 1]? = some e

structure GInv (c0 : Conf N) (g : Glob N D) : Prop extends GBase c0 g where
  euniq : g.elections.Pairwise (fun a b => a.term ≠ b.term)

/-- The invariant without the clause that a leader has appended an entry of its term, which fails
in the middle of `become_leader`. -/
structure Inv0 (c0 : Conf N) (s : Sys N D) : Prop where
  g : GInv c0 s.g
  n : ∀ i, NodeInv c0 s.g i (s.node i)

/-- A leader's last configuration entry, hence its last entry, is of its own term. -/
def OwnOK (n : NodeSt N D) : Prop :=
  lastTerm (n.log.take (lastConfIdx n.log)) = n.term ∧ lastTerm n.log = n.term

structure Inv (c0 : Conf N) (s : Sys N D) : Prop extends Inv0 c0 s where
  own : ∀ i, (s.node i).role = .leader → OwnOK (s.node i)

/-! ### Consequences -/

theorem GBase.core {c0 : Conf N} {g : Glob N D} (h : GBase c0 g) : CoreOK (facts g) c0 where
  chain := fun K1 K2 h1 h2 => h.chain K1 h1 K2 h2
  closed := fun K K' h1 h2 h3 => h.closed K h1 K' h3 h2
  mono := fun K K' h1 h2 => h.mono K h1 K' h2
  origin := fun K h1 => h.origin K h1
  elog := h.elog
  elt := h.elt
  change := h.change
  elect := fun J r hJ => by
    obtain ⟨S, h1, _, h3⟩ := h.el J r hJ
    exact ⟨S, h1, h3⟩

theorem GBase.lc {c0 : Conf N} {g : Glob N D} (h : GBase c0 g) {K : Log N D}
    (hK : K ∈ g.commits) {r : Elec N D} (hr : r ∈ g.elections) (hlt : lastTerm K < r.term) :
    K <+: r.log := by
  obtain ⟨_, K', h1, h2, h3⟩ := h.com K hK
  exact h3.trans (leader_complete h.core h1 hr (by omega))

/-- A committed prefix and a log of a leader of at least that term are comparable. -/
theorem GBase.comm_cmp {c0 : Conf N} {g : Glob N D} (h : GBase c0 g) {X L : Log N D} {u : Nat}
    (hX : Committed g u X) (hL : L ∈ g.created) (hu : u ≤ lastTerm L) : X <+: L ∨ L <+: X := by
  rcases hX with rfl | ⟨K, hK, hKu, hXK⟩
  · exact Or.inl List.nil_prefix
  · rcases Nat.lt_or_ge (lastTerm K) (lastTerm L) with hlt | hge
    · obtain ⟨r, hr, hO⟩ := h.origin L hL
      exact Or.inl ((hXK.trans (h.lc hK hr (by rw [← hO.term]; exact hlt))).trans hO.pref)
    · rcases h.chain K (h.com K hK).1 L hL (by omega) with h' | h'
      · exact Or.inl (hXK.trans h')
      · exact pref_total hXK h'

theorem Committed.mono {g : Glob N D} {u u' : Nat} {X : Log N D} (h : Committed g u X)
    (hu : u ≤ u') : Committed g u' X := by
  rcases h with h | ⟨K, h1, h2, h3⟩
  · exact Or.inl h
  · exact Or.inr ⟨K, h1, by omega, h3⟩

theorem Committed.pre {g : Glob N D} {u : Nat} {X Y : Log N D} (h : Committed g u X)
    (hY : Y <+: X) : Committed g u Y := by
  rcases h with h | ⟨K, h1, h2, h3⟩
  · left; subst h; exact List.prefix_nil.mp hY
  · exact Or.inr ⟨K, h1, h2, hY.trans h3⟩

/-! ### Queues -/

theorem VOk_append {P : Log N D → Op N D → Prop} (d : Log N D) (q q' : List (Op N D)) :
    VOk P d (q ++ q') ↔ VOk P d q ∧ VOk P (drain d q) q' := by
  induction q generalizing d with
  | nil => simp [VOk, drain]
  | cons op q ih =>
    simp only [List.cons_append, VOk, ih, drain, List.foldl_cons]
    constructor
    · rintro ⟨h1, h2, h3⟩; exact ⟨⟨h1, h2⟩, h3⟩
    · rintro ⟨⟨h1, h2⟩, h3⟩; exact ⟨h1, h2, h3⟩

theorem VOk.imp {P P' : Log N D → Op N D → Prop} {d : Log N D} {q : List (Op N D)}
    (h : VOk P d q) (hi : ∀ d op, op ∈ q → P d op → P' d op) : VOk P' d q := by
  induction q generalizing d with
  | nil => trivial
  | cons op q ih =>
    exact ⟨hi d op (by simp) h.1, ih h.2 (fun d op hm hp => hi d op (by simp [hm]) hp)⟩

theorem drain_append (d : Log N D) (q q' : List (Op N D)) :
    drain d (q ++ q') = drain (drain d q) q' := by simp [drain]

theorem Rel.refl (es : List (Elec N D)) (W : Log N D) : Rel es W W := fun K _ h => Or.inl h

theorem Rel.trans {es : List (Elec N D)} {A B C : Log N D} (h1 : Rel es A B) (h2 : Rel es B C) :
    Rel es A C := by
  intro K hK hA
  rcases h1 K hK hA with h | h
  · exact h2 K hK h
  · exact Or.inr h

theorem Culprit.mono {es es' : List (Elec N D)} {K : Log N D} (h : Culprit es K)
    (hs : ∀ r ∈ es, r ∈ es') : Culprit es' K := by
  obtain ⟨r, h1, h2⟩ := h
  exact ⟨r, hs r h1, h2⟩

theorem vrel_drain {es : List (Elec N D)} {d : Log N D} {q : List (Op N D)}
    (h : VOk (fun d op => Rel es d (applyOp d op)) d q) : Rel es d (drain d q) := by
  induction q generalizing d with
  | nil => exact Rel.refl _ _
  | cons op q ih => exact h.1.trans (ih h.2)

theorem vgood_drain {g : Glob N D} {d : Log N D} {q : List (Op N D)}
    (hd : Good g d) (h : VOk (fun d op => Good g (applyOp d op)) d q) :
    Good g (drain d q) := by
  induction q generalizing d with
  | nil => exact hd
  | cons op q ih => exact ih h.1 h.2

theorem NodeInv.glog {c0 : Conf N} {g : Glob N D} {i : N} {n : NodeSt N D}
    (h : NodeInv c0 g i n) : GoodAt g n.term n.log := by
  refine ⟨?_, h.lt⟩
  rw [h.mem]; exact vgood_drain h.gd h.vgood

/-! ### Growing history -/

/-- `g'` extends `g` by events of node `i` only. -/
structure Ext (i : N) (g g' : Glob N D) : Prop where
  msgs : ∀ m ∈ g.msgs, m ∈ g'.msgs
  hist : ∀ j, ∀ O ∈ g.hist j, O ∈ g'.hist j
  histj : ∀ j, j ≠ i → g'.hist j = g.hist j
  created : ∀ K ∈ g.created, K ∈ g'.created
  elections : ∃ es, g'.elections = g.elections ++ es ∧ ∀ r ∈ es, r.node = i
  votes : ∀ v ∈ g.votes, v ∈ g'.votes
  votesn : ∀ v ∈ g'.votes, v ∈ g.votes ∨ v.voter = i
  acks : ∀ a ∈ g.acks, a ∈ g'.acks
  commits : ∀ K ∈ g.commits, K ∈ g'.commits

theorem Ext.refl (i : N) (g : Glob N D) : Ext i g g where
  msgs := fun _ h => h
  hist := fun _ _ h => h
  histj := fun _ _ => rfl
  created := fun _ h => h
  elections := ⟨[], by simp, by simp⟩
  votes := fun _ h => h
  votesn := fun _ h => Or.inl h
  acks := fun _ h => h
  commits := fun _ h => h

theorem Ext.emem {i : N} {g g' : Glob N D} (h : Ext i g g') : ∀ r ∈ g.elections, r ∈ g'.elections := by
  obtain ⟨es, he, _⟩ := h.elections
  intro r hr; rw [he]; simp [hr]

theorem Good.ext {i : N} {g g' : Glob N D} (he : Ext i g g') {W : Log N D} (h : Good g W) :
    Good g' W := fun K h1 h2 => he.created K (h K h1 h2)

theorem GoodAt.ext {i : N} {g g' : Glob N D} (he : Ext i g g') {t : Nat} {W : Log N D}
    (h : GoodAt g t W) : GoodAt g' t W := ⟨h.1.ext he, h.2⟩

theorem Rel.ext {i : N} {g g' : Glob N D} (he : Ext i g g') {A B : Log N D}
    (h : Rel g.elections A B) : Rel g'.elections A B := by
  intro K h1 h2
  rcases h K h1 h2 with h | h
  · exact Or.inl h
  · exact Or.inr (h.mono he.emem)

theorem Committed.ext {i : N} {g g' : Glob N D} (he : Ext i g g') {u : Nat} {X : Log N D}
    (h : Committed g u X) : Committed g' u X := by
  rcases h with h | ⟨K, h1, h2⟩
  · exact Or.inl h
  · exact Or.inr ⟨K, he.commits K h1, h2⟩

theorem Mark.ext {i : N} {g g' : Glob N D} (he : Ext i g g') {n : NodeSt N D} {d : Log N D}
    {op : Op N D} (h : Mark g n d op) : Mark g' n d op := by
  cases op with
  | push => trivial
  | pop => trivial
  | snap => trivial
  | ackF t M c =>
    obtain ⟨h0, h1, ⟨L, hL, hL'⟩, h2, h3, h4⟩ := h
    exact ⟨h0, h1, ⟨L, he.created L hL, hL'⟩, h2, h3, h4.ext he⟩
  | ackL M => exact ⟨h.1, h.2.1, he.created _ h.2.2.1, h.2.2.2⟩

theorem Direct.ext {c0 : Conf N} {g g' : Glob N D} (hc : ∀ K ∈ g.created, K ∈ g'.created)
    (ha : ∀ a ∈ g.acks, a ∈ g'.acks) {K : Log N D} (h : Direct (facts g) c0 K) :
    Direct (facts g') c0 K := by
  obtain ⟨h1, S, h2, h3⟩ := h
  refine ⟨hc K h1, S, h2, ?_⟩
  intro v hv
  obtain ⟨M, hM, hM'⟩ := h3 v hv
  exact ⟨M, ha _ hM, hM'⟩

/-- Other nodes do not notice the events of node `i`. -/
theorem NodeInv.ext {c0 : Conf N} {i j : N} {g g' : Glob N D} (he : Ext i g g') (hj : j ≠ i)
    {n : NodeSt N D} (h : NodeInv c0 g j n)
    (hnew : n.role = .leader → ∀ K ∈ g'.created, K ∈ g.created ∨ lastTerm K ≠ n.term) :
    NodeInv c0 g' j n where
  pt := h.pt
  t1 := h.t1
  mem := h.mem
  hd := he.hist j _ h.hd
  gd := h.gd.ext he
  vgood := h.vgood.imp (fun d op _ hp => hp.ext he)
  lt := h.lt
  gh := fun O hO => (h.gh O (by rw [← he.histj j hj]; exact hO)).ext he
  rh := fun O hO => (h.rh O (by rw [← he.histj j hj]; exact hO)).ext he
  vrel := h.vrel.imp (fun d op _ hp => hp.ext he)
  vmark := h.vmark.imp (fun d op _ hp => hp.ext he)
  lead := fun hr => by
    obtain ⟨h1, r, h2, h3⟩ := h.lead hr
    refine ⟨?_, r, he.emem r h2, h3⟩
    intro K hK ht
    rcases hnew hr K hK with h' | h'
    · exact h1 K h' ht
    · exact absurd ht h'
  el := fun r hr hn => by
    obtain ⟨es, h1, h2⟩ := he.elections
    rw [h1] at hr
    rcases List.mem_append.mp hr with h' | h'
    · exact h.el r h' hn
    · exact absurd ((hn.symm.trans (h2 r h'))) hj
  v1 := fun v hv hn => by
    rcases he.votesn v hv with h' | h'
    · exact h.v1 v h' hn
    · exact absurd (hn.symm.trans h') hj
  vmem := h.vmem
  pv := fun c hc => by
    obtain ⟨k, hk⟩ := h.pv c hc
    exact ⟨k, he.votes _ hk⟩
  mv := fun c hc hne => by
    obtain ⟨k, hk⟩ := h.mv c hc hne
    exact ⟨k, he.votes _ hk⟩
  elec := h.elec
  cand := h.cand
  vf := fun f hf => ⟨he.msgs _ (h.vf f hf).1, (h.vf f hf).2⟩
  cl := h.cl
  cc := h.cc.ext he
  ap := h.ap
  ac := h.ac.ext he
  sn := h.sn
  sp := h.sp
  cs := h.cs.ext he
  sa := h.sa
  dlc := fun K hK => ⟨(h.dlc K hK).1.ext he, (h.dlc K hK).2⟩
  dlf := h.dlf
  smi := h.smi

theorem AeOK.ext {i : N} {g g' : Glob N D} (he : Ext i g g') {t prev pt : Nat}
    {es : List (Entry N D)} {c : Nat} (h : AeOK g t prev pt es c) : AeOK g' t prev pt es c := by
  obtain ⟨L, h1, h2, P, h3, h4, h5, h6⟩ := h
  exact ⟨L, he.created L h1, h2, P, h3, h4, h5, h6.ext he⟩

theorem ArOK.ext {i : N} {g g' : Glob N D} (he : Ext i g g') {t : Nat} {v : N} {m : Nat}
    (h : ArOK g t v m) : ArOK g' t v m := by
  obtain ⟨M, h1, h2, ⟨L, hL, hL'⟩, h3⟩ := h
  refine ⟨M, h1, h2, ⟨L, he.created L hL, hL'⟩, ?_⟩
  rcases h3 with h3 | h3
  · exact Or.inl (he.acks _ h3)
  · exact Or.inr (h3.ext he)

theorem updF_same {β : Type} (f : N → β) (i : N) (v : β) : updF f i v i = v := by simp [updF]

theorem updF_other {β : Type} (f : N → β) {i j : N} (v : β) (h : j ≠ i) : updF f i v j = f j := by
  simp [updF, h]

/-- Assemble the invariant after an action of node `i`. -/
theorem inv0_upd {c0 : Conf N} {s : Sys N D} (h : Inv0 c0 s) (i : N) {n' : NodeSt N D}
    {g' : Glob N D} (he : Ext i s.g g') (hg : GInv c0 g') (hn : NodeInv c0 g' i n')
    (hnew : ∀ j, j ≠ i → (s.node j).role = .leader →
      ∀ K ∈ g'.created, K ∈ s.g.created ∨ lastTerm K ≠ (s.node j).term) :
    Inv0 c0 { node := updF s.node i n', g := g' } where
  g := hg
  n := fun j => by
    by_cases hj : j = i
    · subst hj; simpa [updF_same] using hn
    · simp only [updF_other _ _ hj]
      exact (h.n j).ext he hj (hnew j hj)

theorem inv_upd {c0 : Conf N} {s : Sys N D} (h : Inv c0 s) (i : N) {n' : NodeSt N D}
    {g' : Glob N D} (he : Ext i s.g g') (hg : GInv c0 g') (hn : NodeInv c0 g' i n')
    (hnew : ∀ j, j ≠ i → (s.node j).role = .leader →
      ∀ K ∈ g'.created, K ∈ s.g.created ∨ lastTerm K ≠ (s.node j).term)
    (hown : n'.role = .leader → OwnOK n') :
    Inv c0 { node := updF s.node i n', g := g' } where
  toInv0 := inv0_upd h.toInv0 i he hg hn hnew
  own := fun j => by
    by_cases hj : j = i
    · subst hj; simpa [updF_same] using hown
    · simpa [updF_other _ _ hj] using h.own j

/-- The common case: nothing but node `i` changes. -/
theorem inv_node {c0 : Conf N} {s : Sys N D} (h : Inv c0 s) (i : N) {n' : NodeSt N D}
    (hn : NodeInv c0 s.g i n') (hown : n'.role = .leader → OwnOK n') :
    Inv c0 (setNode s i n') :=
  inv_upd h i (Ext.refl i s.g) h.g hn (fun _ _ _ K hK => Or.inl hK) hown

end Braft.Raft
