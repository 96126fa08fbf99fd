/-
Model of src/braft/ballot.{h,cpp}.

Peers are any type with decidable equality: `PeerId::operator==` (configuration.h:111-113)
compares address and index only, so a peer here stands for that pair.
`int` counters are `Int`.
-/
set_option linter.unusedSectionVars false
set_option linter.unusedSimpArgs false
set_option linter.unusedVariables false

namespace Braft

universe u

/-- ballot.h:46-53 `Ballot::UnfoundPeerId`. -/
structure UnfoundPeer (P : Type u) where
  peer : P
  found : Bool
deriving DecidableEq, Repr

/-- ballot.h:68-71, the four members of `Ballot`. -/
structure Ballot (P : Type u) where
  peers : List (UnfoundPeer P)
  quorum : Int
  oldPeers : List (UnfoundPeer P)
  oldQuorum : Int
deriving DecidableEq, Repr

/-- ballot.h:26-30 `Ballot::PosHint`. -/
structure PosHint where
  pos0 : Int := -1
  pos1 : Int := -1
deriving DecidableEq, Repr

namespace Ballot
variable {P : Type u} [DecidableEq P]

/-- ballot.cpp:24-46 `Ballot::init`. The configurations are the iterated sets as lists;
`old = none` is the null pointer, `some []` a non-null empty configuration. -/
def init (conf : List P) (old : Option (List P)) : Ballot P :=
  let peers := conf.map (fun p => ⟨p, false⟩)
  match old with
  | none => { peers := peers, quorum := peers.length / 2 + 1, oldPeers := [], oldQuorum := 0 }
  | some oc =>
    let ops := oc.map (fun p => ⟨p, false⟩)
    { peers := peers, quorum := peers.length / 2 + 1,
      oldPeers := ops, oldQuorum := ops.length / 2 + 1 }

/-- ballot.h:54-67 `Ballot::find_peer`: try the hint, else scan from the front.
`none` is `peers.end()`. -/
def findPeer (peer : P) (peers : List (UnfoundPeer P)) (hint : Int) : Option Nat :=
  if hint < 0 then peers.findIdx? (fun u => u.peer == peer)
  else
    match peers[hint.toNat]? with
    | none => peers.findIdx? (fun u => u.peer == peer)
    | some u =>
      if u.peer ≠ peer then peers.findIdx? (fun u => u.peer == peer) else some hint.toNat

/-- ballot.cpp:52-55 / 69-72: mark position `i` found; the counter drops if it was not. -/
def mark (peers : List (UnfoundPeer P)) (q : Int) (i : Nat) : List (UnfoundPeer P) × Int :=
  match peers[i]? with
  | none => (peers, q)
  | some u => if u.found then (peers, q) else (peers.set i { u with found := true }, q - 1)

/-- ballot.cpp:48-79 `Ballot::grant(peer, hint)`. -/
def grantHint (b : Ballot P) (peer : P) (hint : PosHint) : Ballot P × PosHint :=
  let r0 := findPeer peer b.peers hint.pos0
  let (b1, h0) : Ballot P × Int :=
    match r0 with
    | some i => ({ b with peers := (mark b.peers b.quorum i).1,
                          quorum := (mark b.peers b.quorum i).2 }, (i : Int))
    | none => (b, -1)
  if b1.oldPeers.isEmpty then (b1, ⟨h0, -1⟩)
  else
    match findPeer peer b1.oldPeers hint.pos1 with
    | some i => ({ b1 with oldPeers := (mark b1.oldPeers b1.oldQuorum i).1,
                           oldQuorum := (mark b1.oldPeers b1.oldQuorum i).2 }, ⟨h0, (i : Int)⟩)
    | none => (b1, ⟨h0, -1⟩)

/-- ballot.cpp:81-83 `Ballot::grant(peer)`. -/
def grant (b : Ballot P) (peer : P) : Ballot P := (grantHint b peer {}).1

/-- ballot.h:44 `Ballot::granted`. -/
def granted (b : Ballot P) : Bool := decide (b.quorum ≤ 0) && decide (b.oldQuorum ≤ 0)

/-- A caller's history: grants with arbitrary hints, in order. -/
def grantAll (b : Ballot P) : List (P × PosHint) → Ballot P
  | [] => b
  | (p, h) :: rest => grantAll (grantHint b p h).1 rest

end Ballot

/-! ## Specification -/

/-- Number of members of `conf` satisfying `q`. -/
def countIn {P : Type u} (conf : List P) (q : P → Bool) : Nat := conf.countP q

/-- `S` contains a majority of the members of `conf`. -/
def Majority {P : Type u} (conf : List P) (S : P → Bool) : Prop :=
  conf.length < 2 * conf.countP S

/-- The joint-quorum predicate: majority of the configuration and, in joint mode, of the old one. -/
def IsQuorum {P : Type u} (conf : List P) (old : Option (List P)) (S : P → Bool) : Prop :=
  Majority conf S ∧ ∀ oc, old = some oc → Majority oc S

/-! ## Lemmas -/
namespace Ballot
variable {P : Type u} [DecidableEq P]

/-- Ballot-vector invariant: the vector is the configuration in order, the found flags mark
exactly the granted members, and the counter is the majority size minus the marked ones. -/
def VecInv (conf : List P) (S : P → Bool) (peers : List (UnfoundPeer P)) (q : Int) : Prop :=
  peers = conf.map (fun p => ⟨p, S p⟩) ∧ q = (conf.length / 2 + 1 : Nat) - (conf.countP S : Int)

theorem findPeer_spec (conf : List P) (hnd : conf.Nodup) (S : P → Bool) (peer : P) (hint : Int) :
    findPeer peer (conf.map (fun p => (⟨p, S p⟩ : UnfoundPeer P))) hint
      = conf.findIdx? (fun p => p == peer) := by
  have key : (conf.map (fun p => (⟨p, S p⟩ : UnfoundPeer P))).findIdx? (fun u => u.peer == peer)
      = conf.findIdx? (fun p => p == peer) := by
    rw [List.findIdx?_map]; rfl
  unfold findPeer
  split
  · exact key
  · split
    · exact key
    · rename_i u hu
      split
      · exact key
      · rename_i hne
        simp only [ne_eq, Decidable.not_not] at hne
        rw [List.getElem?_map] at hu
        cases hx : conf[hint.toNat]? with
        | none => simp [hx] at hu
        | some x =>
          simp [hx] at hu
          subst hu
          simp at hne
          subst hne
          symm
          rw [List.findIdx?_eq_some_iff_getElem]
          obtain ⟨hlt, hget⟩ := List.getElem?_eq_some_iff.mp hx
          refine ⟨hlt, by simp [hget], ?_⟩
          intro j hj
          simp only [beq_iff_eq]
          intro heq
          have : j = hint.toNat := by
            have h1 : conf[j] = conf[hint.toNat] := by rw [heq, hget]
            exact (List.getElem_inj hnd).mp h1
          omega

theorem countP_insert_of_mem (conf : List P) (hnd : conf.Nodup) (S : P → Bool) (peer : P)
    (hm : peer ∈ conf) (hS : S peer = false) :
    conf.countP (fun p => S p || p == peer) = conf.countP S + 1 := by
  induction conf with
  | nil => cases hm
  | cons a l ih =>
    rw [List.nodup_cons] at hnd
    rw [List.countP_cons, List.countP_cons]
    by_cases ha : a = peer
    · subst ha
      have : l.countP (fun p => S p || p == a) = l.countP S := by
        apply List.countP_congr
        intro x hx
        have : x ≠ a := fun h => hnd.1 (h ▸ hx)
        simp [this]
      rw [this]; simp [hS]
    · have hm' : peer ∈ l := by
        rcases List.mem_cons.mp hm with h | h
        · exact absurd h.symm ha
        · exact h
      rw [ih hnd.2 hm']
      simp [ha]; omega

theorem countP_insert_of_not (conf : List P) (S : P → Bool) (peer : P)
    (h : peer ∉ conf ∨ S peer = true) :
    conf.countP (fun p => S p || p == peer) = conf.countP S := by
  apply List.countP_congr
  intro x hx
  rcases h with h | h
  · have : x ≠ peer := fun e => h (e ▸ hx)
    simp [this]
  · by_cases hxp : x = peer
    · subst hxp; simp [h]
    · simp [hxp]

/-- One grant maintains the vector invariant, adding the peer to the granted set. -/
theorem vecInv_step {conf : List P} (hnd : conf.Nodup) {S : P → Bool}
    {peers : List (UnfoundPeer P)} {q : Int} (h : VecInv conf S peers q) (peer : P) (hint : Int) :
    VecInv conf (fun p => S p || p == peer)
      (match findPeer peer peers hint with | some i => (mark peers q i).1 | none => peers)
      (match findPeer peer peers hint with | some i => (mark peers q i).2 | none => q) := by
  obtain ⟨hp, hq⟩ := h
  subst hp
  rw [findPeer_spec conf hnd]
  cases hf : conf.findIdx? (fun p => p == peer) with
  | none =>
    rw [List.findIdx?_eq_none_iff] at hf
    have hnm : peer ∉ conf := fun hm => by have := hf peer hm; simp at this
    refine ⟨?_, ?_⟩
    · apply List.map_congr_left
      intro x hx
      have : x ≠ peer := fun e => hnm (e ▸ hx)
      simp [this]
    · rw [hq, countP_insert_of_not conf S peer (Or.inl hnm)]
  | some i =>
    rw [List.findIdx?_eq_some_iff_getElem] at hf
    obtain ⟨hi, hpi, _⟩ := hf
    simp only [beq_iff_eq] at hpi
    have hmem : peer ∈ conf := hpi ▸ List.getElem_mem hi
    simp only [mark]
    have hget : (conf.map (fun p => (⟨p, S p⟩ : UnfoundPeer P)))[i]? = some ⟨peer, S peer⟩ := by
      rw [List.getElem?_map, List.getElem?_eq_getElem hi, hpi]; rfl
    rw [hget]
    simp only
    by_cases hS : S peer = true
    · simp only [hS, if_true]
      refine ⟨?_, ?_⟩
      · apply List.map_congr_left
        intro x _
        by_cases hx : x = peer
        · subst hx; simp [hS]
        · simp [hx]
      · rw [hq, countP_insert_of_not conf S peer (Or.inr hS)]
    · have hS' : S peer = false := by simpa using hS
      simp only [hS', Bool.false_eq_true, if_false]
      refine ⟨?_, ?_⟩
      · apply List.ext_getElem
        · simp
        · intro j h1 h2
          simp only [List.getElem_set, List.getElem_map]
          split
          · rename_i hij; subst hij
            simp [hpi]
          · rename_i hij
            have hne : conf[j]'(by simpa using h2) ≠ peer := by
              intro e
              have : conf[j]'(by simpa using h2) = conf[i] := by rw [e, hpi]
              exact hij ((List.getElem_inj hnd).mp this).symm
            simp [hne]
      · rw [hq, countP_insert_of_mem conf hnd S peer hmem hS']
        omega

/-- Invariant of a whole ballot for granted set `S`. -/
def Inv (conf : List P) (old : Option (List P)) (S : P → Bool) (b : Ballot P) : Prop :=
  VecInv conf S b.peers b.quorum ∧
    match old with
    | none => b.oldPeers = [] ∧ b.oldQuorum = 0
    | some oc => VecInv oc S b.oldPeers b.oldQuorum

theorem inv_init (conf : List P) (old : Option (List P)) :
    Inv conf old (fun _ => false) (init conf old) := by
  cases old with
  | none => simp [Inv, init, VecInv]
  | some oc => simp [Inv, init, VecInv]

theorem inv_grantHint {conf : List P} {old : Option (List P)} (hnd : conf.Nodup)
    (hndo : ∀ oc, old = some oc → oc.Nodup) {S : P → Bool} {b : Ballot P}
    (h : Inv conf old S b) (peer : P) (hint : PosHint) :
    Inv conf old (fun p => S p || p == peer) (grantHint b peer hint).1 := by
  obtain ⟨hv, ho⟩ := h
  have h1 := vecInv_step hnd hv peer hint.pos0
  cases old with
  | none =>
    obtain ⟨ho1, ho2⟩ := ho
    cases hf : findPeer peer b.peers hint.pos0 with
    | none =>
      simp only [hf] at h1
      simp [grantHint, hf, ho1, Inv, ho2]; exact h1
    | some i =>
      simp only [hf] at h1
      simp [grantHint, hf, ho1, Inv, ho2]; exact h1
  | some oc =>
    have h2 := vecInv_step (hndo oc rfl) ho peer hint.pos1
    have hempty : b.oldPeers.isEmpty = true →
        VecInv oc (fun p => S p || p == peer) b.oldPeers b.oldQuorum := by
      intro he
      have hocnil : oc = [] := by
        have := ho.1
        rw [List.isEmpty_iff] at he
        rw [he] at this
        simpa using this.symm
      subst hocnil
      obtain ⟨ho1, ho2⟩ := ho
      exact ⟨by simpa using ho1, by simpa using ho2⟩
    cases hf : findPeer peer b.peers hint.pos0 with
    | none =>
      simp only [hf] at h1
      simp only [grantHint, hf]
      by_cases he : b.oldPeers.isEmpty = true
      · simp only [he, if_true]; exact ⟨h1, hempty he⟩
      · simp only [he]
        cases hg : findPeer peer b.oldPeers hint.pos1 with
        | none => simp only [hg] at h2; exact ⟨h1, h2⟩
        | some j => simp only [hg] at h2; exact ⟨h1, h2⟩
    | some i =>
      simp only [hf] at h1
      simp only [grantHint, hf]
      by_cases he : b.oldPeers.isEmpty = true
      · simp only [he, if_true]; exact ⟨h1, hempty he⟩
      · simp only [he]
        cases hg : findPeer peer b.oldPeers hint.pos1 with
        | none => simp only [hg] at h2; exact ⟨h1, h2⟩
        | some j => simp only [hg] at h2; exact ⟨h1, h2⟩

theorem inv_grantAll {conf : List P} {old : Option (List P)} (hnd : conf.Nodup)
    (hndo : ∀ oc, old = some oc → oc.Nodup) (gs : List (P × PosHint)) :
    ∀ {S : P → Bool} {b : Ballot P}, Inv conf old S b →
      Inv conf old (fun p => S p || decide (p ∈ gs.map Prod.fst)) (grantAll b gs) := by
  induction gs with
  | nil => intro S b h; simpa [grantAll] using h
  | cons g rest ih =>
    intro S b h
    obtain ⟨p, hint⟩ := g
    have := ih (inv_grantHint hnd hndo h p hint)
    simp only [grantAll]
    have e : (fun x => S x || decide (x ∈ List.map Prod.fst ((p, hint) :: rest)))
        = (fun x => S x || x == p || decide (x ∈ List.map Prod.fst rest)) := by
      funext x
      rw [Bool.eq_iff_iff]
      simp [or_assoc]
    rw [e]; exact this

theorem inv_granted_iff {conf : List P} {old : Option (List P)} {S : P → Bool} {b : Ballot P}
    (h : Inv conf old S b) : granted b = true ↔ IsQuorum conf old S := by
  obtain ⟨⟨_, hq⟩, ho⟩ := h
  simp only [granted, Bool.and_eq_true, decide_eq_true_eq, IsQuorum, Majority]
  cases old with
  | none =>
    obtain ⟨_, ho2⟩ := ho
    rw [hq, ho2]
    simp; omega
  | some oc =>
    obtain ⟨_, ho2⟩ := ho
    rw [hq, ho2]
    simp only [Option.some.injEq, forall_eq']
    omega

/-- Two majorities of lists where the second is contained in the first up to one extra element
share a member. -/
theorem countP_le_add {S T : P → Bool} (l : List P)
    (h : ∀ p ∈ l, ¬(S p = true ∧ T p = true)) : l.countP S + l.countP T ≤ l.length := by
  induction l with
  | nil => simp
  | cons a l ih =>
    have := ih (fun p hp => h p (List.mem_cons_of_mem _ hp))
    have ha := h a List.mem_cons_self
    rw [List.countP_cons, List.countP_cons, List.length_cons]
    by_cases h1 : S a = true <;> by_cases h2 : T a = true <;> simp_all <;> omega

/-- Two majorities of the same member list share a member of the list. -/
theorem majority_inter {S T : P → Bool} {l : List P} (hS : Majority l S) (hT : Majority l T) :
    ∃ p ∈ l, S p = true ∧ T p = true := by
  apply Classical.byContradiction
  intro hne
  have := countP_le_add (S := S) (T := T) l (fun p hp h => hne ⟨p, hp, h⟩)
  unfold Majority at hS hT
  omega

theorem countP_perm {l l' : List P} (h : l.Perm l') (S : P → Bool) : l.countP S = l'.countP S :=
  h.countP_eq S

/-- Same for two lists of which one has one extra member. -/
theorem majority_inter_add {S T : P → Bool} {l l' : List P} {x : P} (h : l'.Perm (x :: l))
    (hS : Majority l S) (hT : Majority l' T) : ∃ p ∈ l, S p = true ∧ T p = true := by
  apply Classical.byContradiction
  intro hne
  have h1 := countP_le_add (S := S) (T := T) l (fun p hp h => hne ⟨p, hp, h⟩)
  unfold Majority at hS hT
  rw [countP_perm h, h.length_eq, List.countP_cons, List.length_cons] at hT
  by_cases hx : T x = true <;> simp [hx] at hT <;> omega

end Ballot
end Braft
