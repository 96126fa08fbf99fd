import Verif.Ballot
/-!
Properties C09 and C10: quorum counting of `Ballot`.

Specification (from Verif/Ballot.lean): `Majority conf S` says that strictly more than half of
the members of `conf` satisfy `S`; `IsQuorum conf old S` adds the same for the old configuration
when there is one (joint mode).
-/
namespace Braft.Props
open Braft
universe u
variable {P : Type u} [DecidableEq P]

/-- C09. After any sequence of grants, in any order, with repetitions, from members or strangers
and with any position hints, the ballot is granted exactly when the peers that granted form a
quorum of the configuration (and of the old configuration in joint mode). `Nodup` holds because a
`Configuration` is a `std::set`. -/
theorem C09_granted_iff_quorum (conf : List P) (old : Option (List P)) (hnd : conf.Nodup)
    (hndo : ∀ oc, old = some oc → oc.Nodup) (gs : List (P × PosHint)) :
    (Ballot.grantAll (Ballot.init conf old) gs).granted = true ↔
      IsQuorum conf old (fun p => decide (p ∈ gs.map Prod.fst)) := by
  have h := Ballot.inv_grantAll hnd hndo gs (Ballot.inv_init conf old)
  have e : (fun p => false || decide (p ∈ gs.map Prod.fst))
      = (fun p => decide (p ∈ gs.map Prod.fst)) := by funext p; simp
  rw [e] at h
  exact Ballot.inv_granted_iff h

/-- A joint 3→2 ballot with a repeated and a foreign grant. -/
example : (Ballot.grantAll (Ballot.init [1, 2, 3] (some [3, 4]))
    [(1, {}), (1, ⟨0, 5⟩), (9, {}), (3, ⟨2, 0⟩), (4, {})]).granted = true ∧
    (Ballot.grantAll (Ballot.init [1, 2, 3] (some [3, 4]))
    [(1, {}), (1, ⟨0, 5⟩), (9, {}), (3, ⟨2, 0⟩)]).granted = false ∧
    [1, 2, 3].Nodup ∧ [3, 4].Nodup := by decide

/-- C09 (hints are an optimisation only): the ballot reached does not depend on the hints. -/
theorem C09_hints_irrelevant (conf : List P) (old : Option (List P)) (hnd : conf.Nodup)
    (hndo : ∀ oc, old = some oc → oc.Nodup) (gs gs' : List (P × PosHint))
    (h : ∀ p, p ∈ gs.map Prod.fst ↔ p ∈ gs'.map Prod.fst) :
    Ballot.grantAll (Ballot.init conf old) gs = Ballot.grantAll (Ballot.init conf old) gs' := by
  have h1 := Ballot.inv_grantAll hnd hndo gs (Ballot.inv_init conf old)
  have h2 := Ballot.inv_grantAll hnd hndo gs' (Ballot.inv_init conf old)
  have e : (fun p => false || decide (p ∈ gs.map Prod.fst))
      = (fun p => false || decide (p ∈ gs'.map Prod.fst)) := by funext p; simp [h]
  rw [e] at h1
  generalize Ballot.grantAll (Ballot.init conf old) gs = b1 at *
  generalize Ballot.grantAll (Ballot.init conf old) gs' = b2 at *
  obtain ⟨⟨a1, a2⟩, a3⟩ := h1
  obtain ⟨⟨c1, c2⟩, c3⟩ := h2
  cases b1; cases b2
  cases old with
  | none => simp_all
  | some oc =>
    obtain ⟨x1, x2⟩ := a3
    obtain ⟨y1, y2⟩ := c3
    simp_all

example : (∀ p, p ∈ [(1, ({} : PosHint)), (2, {})].map Prod.fst ↔
    p ∈ [(2, ({} : PosHint)), (1, ⟨0, 3⟩), (2, {})].map Prod.fst) := by
  intro p; simp; omega

/-- C09 (degenerate input): a ballot over an empty configuration, or with a non-null but empty old
configuration, can never be granted. -/
theorem C09_empty_never_granted (conf : List P) (old : Option (List P)) (hnd : conf.Nodup)
    (hndo : ∀ oc, old = some oc → oc.Nodup) (hempty : conf = [] ∨ old = some [])
    (gs : List (P × PosHint)) :
    (Ballot.grantAll (Ballot.init conf old) gs).granted = false := by
  rw [Bool.eq_false_iff]
  intro h
  rw [C09_granted_iff_quorum conf old hnd hndo] at h
  rcases hempty with h0 | h0
  · subst h0; simp [IsQuorum, Majority] at h
  · have := h.2 [] h0
    simp [Majority] at this

example : (([1, 2] : List Nat) = [] ∨ (some ([] : List Nat)) = some []) := by simp

/-- C10. Two granted ballots over the same configuration were both granted by some common
member. -/
theorem C10_same_conf (conf : List P) (hnd : conf.Nodup) (gs gs' : List (P × PosHint))
    (h : (Ballot.grantAll (Ballot.init conf none) gs).granted = true)
    (h' : (Ballot.grantAll (Ballot.init conf none) gs').granted = true) :
    ∃ p ∈ conf, p ∈ gs.map Prod.fst ∧ p ∈ gs'.map Prod.fst := by
  rw [C09_granted_iff_quorum conf none hnd (by simp)] at h h'
  obtain ⟨p, hp, h1, h2⟩ := Ballot.majority_inter h.1 h'.1
  exact ⟨p, hp, by simpa using h1, by simpa using h2⟩

example : (Ballot.grantAll (Ballot.init [1, 2, 3] none) [(1, {}), (2, {})]).granted = true ∧
    (Ballot.grantAll (Ballot.init [1, 2, 3] none) [(3, {}), (2, {})]).granted = true := by decide

/-- C10. Same when the second configuration has one additional member (add_peer), hence also when
it has one member fewer (remove_peer). -/
theorem C10_one_peer_apart (conf conf' : List P) (x : P) (hnd : conf.Nodup) (hnd' : conf'.Nodup)
    (hadd : ∀ p, p ∈ conf' ↔ p = x ∨ p ∈ conf) (hx : x ∉ conf) (gs gs' : List (P × PosHint))
    (h : (Ballot.grantAll (Ballot.init conf none) gs).granted = true)
    (h' : (Ballot.grantAll (Ballot.init conf' none) gs').granted = true) :
    ∃ p ∈ conf, p ∈ gs.map Prod.fst ∧ p ∈ gs'.map Prod.fst := by
  rw [C09_granted_iff_quorum conf none hnd (by simp)] at h
  rw [C09_granted_iff_quorum conf' none hnd' (by simp)] at h'
  have hperm : conf'.Perm (x :: conf) := by
    rw [List.perm_ext_iff_of_nodup hnd' (List.nodup_cons.mpr ⟨hx, hnd⟩)]
    intro a; simp [hadd]
  obtain ⟨p, hp, h1, h2⟩ := Ballot.majority_inter_add hperm h.1 h'.1
  exact ⟨p, hp, by simpa using h1, by simpa using h2⟩

example : (Ballot.grantAll (Ballot.init [1, 2, 3] none) [(1, {}), (2, {})]).granted = true ∧
    (Ballot.grantAll (Ballot.init [1, 2, 3, 4] none) [(3, {}), (4, {}), (2, {})]).granted = true
    ∧ (∀ p, p ∈ [1, 2, 3, 4] ↔ p = 4 ∨ p ∈ [1, 2, 3]) ∧ 4 ∉ [1, 2, 3] := by
  refine ⟨by decide, by decide, ?_, by decide⟩
  intro p; simp; omega

/-- C10. A joint ballot shares a member with any granted ballot of its new half, of its old half,
or of another joint configuration with the same new or the same old half. -/
theorem C10_joint (conf oc c : List P) (hnd : conf.Nodup) (hndo : oc.Nodup)
    (old' : Option (List P)) (hndo' : ∀ o, old' = some o → o.Nodup)
    (hc : c.Nodup) (hhalf : c = conf ∨ c = oc ∨ old' = some oc ∨ old' = some conf)
    (gs gs' : List (P × PosHint))
    (h : (Ballot.grantAll (Ballot.init conf (some oc)) gs).granted = true)
    (h' : (Ballot.grantAll (Ballot.init c old') gs').granted = true) :
    ∃ p, p ∈ gs.map Prod.fst ∧ p ∈ gs'.map Prod.fst := by
  rw [C09_granted_iff_quorum conf (some oc) hnd (by intro o ho; cases ho; exact hndo)] at h
  rw [C09_granted_iff_quorum c old' hc hndo'] at h'
  have h1 := h.1
  have h2 := h.2 oc rfl
  have fin : ∀ l : List P, Majority l (fun p => decide (p ∈ gs.map Prod.fst)) →
      Majority l (fun p => decide (p ∈ gs'.map Prod.fst)) →
      ∃ p, p ∈ gs.map Prod.fst ∧ p ∈ gs'.map Prod.fst := by
    intro l a b
    obtain ⟨p, _, x, y⟩ := Ballot.majority_inter a b
    exact ⟨p, by simpa using x, by simpa using y⟩
  rcases hhalf with e | e | e | e
  · subst e; exact fin _ h1 h'.1
  · subst e; exact fin _ h2 h'.1
  · exact fin oc h2 (h'.2 oc e)
  · exact fin conf h1 (h'.2 conf e)

example : (Ballot.grantAll (Ballot.init [1, 2, 3] (some [3, 4])) [(1, {}), (3, {}), (4, {})]).granted
    = true ∧ (Ballot.grantAll (Ballot.init [3, 4] none) [(3, {}), (4, {})]).granted = true := by
  decide

end Braft.Props
