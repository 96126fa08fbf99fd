/-!
# PeerId and Configuration

Model of src/braft/configuration.h and configuration.cpp.

`std::set<PeerId>` is a list kept sorted by `operator<`; `insert`, `erase` and `find` follow the
semantics of `std::set` with that comparator (equivalence = neither is less).

Simplification: `butil::EndPoint` is an IPv4 address (a natural number) and a port (an `int`);
extended end points (unix sockets, IPv6) are not modelled.
-/
set_option linter.unusedVariables false
set_option linter.unusedSimpArgs false

namespace Braft

/-- configuration.h:36-39 `enum Role`. -/
inductive Role | replica | witness
deriving DecidableEq, Repr, Inhabited

/-- configuration.h:42-56 `struct PeerId` -/
structure PeerId where
  ip : Nat := 0
  port : Int := 0
  idx : Int := 0
  role : Role := .replica
deriving DecidableEq, Repr, Inhabited

namespace PeerId

/-- `butil::EndPoint operator<`: by ip, then by port. -/
def addrLt (a b : PeerId) : Bool := decide (a.ip < b.ip) || (decide (a.ip = b.ip) && decide (a.port < b.port))

/-- `butil::EndPoint operator==`. -/
def addrEq (a b : PeerId) : Bool := decide (a.ip = b.ip) && decide (a.port = b.port)

/-- configuration.h:107-113 `operator<`. Role is ignored. -/
def lt (a b : PeerId) : Bool :=
  if addrLt a b then true else addrEq a b && decide (a.idx < b.idx)

/-- configuration.h:115-117 `operator==`. Role is ignored. -/
def eqv (a b : PeerId) : Bool := addrEq a b && decide (a.idx = b.idx)

/-- configuration.h:68-70 `is_empty`: the value meaning "no peer" (e.g. no vote). -/
def isEmpty (a : PeerId) : Bool := decide (a.ip = 0) && decide (a.port = 0) && decide (a.idx = 0)

theorem eqv_iff {a b : PeerId} : eqv a b = true ↔ a.ip = b.ip ∧ a.port = b.port ∧ a.idx = b.idx := by
  simp [eqv, addrEq, and_assoc]

theorem lt_iff {a b : PeerId} : lt a b = true ↔ a.ip < b.ip ∨ (a.ip = b.ip ∧ (a.port < b.port ∨
    (a.port = b.port ∧ a.idx < b.idx))) := by
  unfold lt addrLt addrEq
  by_cases h1 : a.ip < b.ip <;> by_cases h2 : a.ip = b.ip <;> by_cases h3 : a.port < b.port <;>
    by_cases h4 : a.port = b.port <;> simp [*] <;> omega

theorem eqv_refl (a : PeerId) : eqv a a = true := by simp [eqv_iff]
theorem eqv_symm {a b : PeerId} (h : eqv a b = true) : eqv b a = true := by
  simp only [eqv_iff] at *; omega
theorem eqv_trans {a b c : PeerId} (h : eqv a b = true) (h' : eqv b c = true) : eqv a c = true := by
  simp only [eqv_iff] at *; omega
theorem lt_trans {a b c : PeerId} (h : lt a b = true) (h' : lt b c = true) : lt a c = true := by
  simp only [lt_iff] at *; omega
theorem lt_irrefl (a : PeerId) : ¬ lt a a = true := by simp only [lt_iff]; omega
theorem lt_tri (a b : PeerId) : lt a b = true ∨ eqv a b = true ∨ lt b a = true := by
  simp only [lt_iff, eqv_iff]; omega
theorem lt_not_eqv {a b : PeerId} (h : lt a b = true) : ¬ eqv a b = true := by
  simp only [lt_iff, eqv_iff] at *; omega
theorem lt_of_eqv_left {a b c : PeerId} (h : eqv a b = true) (h' : lt b c = true) : lt a c = true := by
  simp only [lt_iff, eqv_iff] at *; omega
theorem lt_of_eqv_right {a b c : PeerId} (h : eqv b c = true) (h' : lt a b = true) : lt a c = true := by
  simp only [lt_iff, eqv_iff] at *; omega

end PeerId

/-- `std::set<PeerId>` as the list of its elements in iteration order. -/
abbrev PeerSet := List PeerId

namespace PeerSet

/-- `std::set::find(p) != end()`: descends by `operator<`, finds an equivalent key. On the sorted
list: skip the elements less than `p`, then check equivalence (`!(p < x)`). -/
def find (s : PeerSet) (p : PeerId) : Bool :=
  match s with
  | [] => false
  | x :: xs => if PeerId.lt x p then find xs p else !(PeerId.lt p x)

/-- `std::set::insert`: an equivalent element already present is kept and the set is unchanged. -/
def insert (s : PeerSet) (p : PeerId) : PeerSet :=
  match s with
  | [] => [p]
  | x :: xs => if PeerId.lt x p then x :: insert xs p
               else if PeerId.lt p x then p :: x :: xs else x :: xs

/-- `std::set::erase(key)`. -/
def erase (s : PeerSet) (p : PeerId) : PeerSet :=
  match s with
  | [] => []
  | x :: xs => if PeerId.lt x p then x :: erase xs p
               else if PeerId.lt p x then x :: xs else xs

/-- The representation invariant of `std::set`: strictly increasing. -/
def WF (s : PeerSet) : Prop := s.Pairwise (fun a b => PeerId.lt a b = true)

/-- Specification of membership: some element is equal (`operator==`) to `p`. -/
def Mem (s : PeerSet) (p : PeerId) : Prop := ∃ x ∈ s, PeerId.eqv x p = true

theorem mem_insert_sub {s : PeerSet} {p x : PeerId} (h : x ∈ insert s p) : x = p ∨ x ∈ s := by
  induction s with
  | nil => simp [insert] at h; exact .inl h
  | cons y ys ih =>
    unfold insert at h
    split at h
    · rcases List.mem_cons.mp h with h | h
      · exact .inr (by simp [h])
      · rcases ih h with h | h
        · exact .inl h
        · exact .inr (by simp [h])
    · split at h
      · rcases List.mem_cons.mp h with h | h
        · exact .inl h
        · exact .inr h
      · exact .inr h

theorem mem_erase_sub {s : PeerSet} {p x : PeerId} (h : x ∈ erase s p) : x ∈ s := by
  induction s with
  | nil => simp [erase] at h
  | cons y ys ih =>
    unfold erase at h
    split at h
    · rcases List.mem_cons.mp h with h | h
      · simp [h]
      · exact List.mem_cons_of_mem _ (ih h)
    · split at h
      · exact h
      · exact List.mem_cons_of_mem _ h

theorem wf_insert {s : PeerSet} {p : PeerId} (h : WF s) : WF (insert s p) := by
  induction s with
  | nil => simp [insert, WF]
  | cons y ys ih =>
    unfold WF at h
    rw [List.pairwise_cons] at h
    unfold insert
    split
    · rename_i hy
      unfold WF
      rw [List.pairwise_cons]
      refine ⟨fun a ha => ?_, ih h.2⟩
      rcases mem_insert_sub ha with rfl | ha
      · exact hy
      · exact h.1 a ha
    · split
      · rename_i hy
        unfold WF
        rw [List.pairwise_cons, List.pairwise_cons]
        refine ⟨fun a ha => ?_, h⟩
        rcases List.mem_cons.mp ha with rfl | ha
        · exact hy
        · exact PeerId.lt_trans hy (h.1 a ha)
      · exact List.pairwise_cons.mpr h

theorem wf_erase {s : PeerSet} {p : PeerId} (h : WF s) : WF (erase s p) := by
  induction s with
  | nil => simp [erase, WF]
  | cons y ys ih =>
    have h0 := h
    unfold WF at h
    rw [List.pairwise_cons] at h
    unfold erase
    split
    · unfold WF
      rw [List.pairwise_cons]
      exact ⟨fun a ha => h.1 a (mem_erase_sub ha), ih h.2⟩
    · split
      · exact h0
      · exact h.2

theorem eqv_of_not_lt {a b : PeerId} (h1 : ¬ PeerId.lt a b = true) (h2 : ¬ PeerId.lt b a = true) :
    PeerId.eqv a b = true := by
  rcases PeerId.lt_tri a b with h | h | h
  · exact absurd h h1
  · exact h
  · exact absurd h h2

/-- `find` is membership on well formed sets. -/
theorem find_iff {s : PeerSet} {p : PeerId} (h : WF s) : find s p = true ↔ Mem s p := by
  induction s with
  | nil => simp [find, Mem]
  | cons y ys ih =>
    unfold WF at h
    rw [List.pairwise_cons] at h
    unfold find
    split
    · rename_i hy
      rw [ih h.2]
      constructor
      · rintro ⟨x, hx, he⟩; exact ⟨x, List.mem_cons_of_mem _ hx, he⟩
      · rintro ⟨x, hx, he⟩
        rcases List.mem_cons.mp hx with rfl | hx
        · exact absurd he (PeerId.lt_not_eqv hy)
        · exact ⟨x, hx, he⟩
    · rename_i hy
      constructor
      · intro hp
        simp only [Bool.not_eq_true'] at hp
        exact ⟨y, List.mem_cons_self, eqv_of_not_lt hy (by simp [hp])⟩
      · rintro ⟨x, hx, he⟩
        rw [Bool.not_eq_true']
        rcases List.mem_cons.mp hx with rfl | hx
        · cases hc : PeerId.lt p x with
          | false => rfl
          | true => exact absurd (PeerId.eqv_symm he) (PeerId.lt_not_eqv hc)
        · exact absurd (PeerId.lt_of_eqv_right he (h.1 x hx)) hy

theorem mem_insert {s : PeerSet} {p q : PeerId} :
    Mem (insert s p) q ↔ Mem s q ∨ PeerId.eqv p q = true := by
  induction s with
  | nil => simp [insert, Mem]
  | cons y ys ih =>
    have hcons : ∀ (z : PeerId) (l : PeerSet), Mem (z :: l) q ↔ PeerId.eqv z q = true ∨ Mem l q := by
      intro z l; simp [Mem]
    unfold insert
    split
    · rw [hcons, hcons, ih]; simp [or_assoc]
    · split
      · rw [hcons, or_comm]
      · rename_i h1 h2
        constructor
        · exact .inl
        · rintro (h | h)
          · exact h
          · exact ⟨y, List.mem_cons_self, PeerId.eqv_trans (eqv_of_not_lt h1 h2) h⟩

theorem mem_erase {s : PeerSet} {p q : PeerId} (hw : WF s) :
    Mem (erase s p) q ↔ Mem s q ∧ ¬ PeerId.eqv p q = true := by
  have hcons : ∀ (z : PeerId) (l : PeerSet), Mem (z :: l) q ↔ PeerId.eqv z q = true ∨ Mem l q := by
    intro z l; simp [Mem]
  induction s with
  | nil => simp [erase, Mem]
  | cons y ys ih =>
    unfold WF at hw
    rw [List.pairwise_cons] at hw
    unfold erase
    split
    · rename_i hy
      have ih' := ih hw.2
      simp only [hcons, ih']
      constructor
      · rintro (h | h)
        · exact ⟨.inl h, fun hp => PeerId.lt_not_eqv hy (PeerId.eqv_trans h (PeerId.eqv_symm hp))⟩
        · exact ⟨.inr h.1, h.2⟩
      · rintro ⟨h | h, h'⟩
        · exact .inl h
        · exact .inr ⟨h, h'⟩
    · split
      · rename_i hn hp
        constructor
        · intro h
          refine ⟨h, fun he => ?_⟩
          obtain ⟨x, hx, hxq⟩ := h
          have hpx : PeerId.lt p x = true := by
            rcases List.mem_cons.mp hx with rfl | hx
            · exact hp
            · exact PeerId.lt_trans hp (hw.1 x hx)
          exact PeerId.lt_not_eqv hpx (PeerId.eqv_trans he (PeerId.eqv_symm hxq))
        · exact And.left
      · rename_i hn hp
        have hyp := eqv_of_not_lt hn hp
        rw [hcons]
        constructor
        · intro h
          refine ⟨.inr h, fun he => ?_⟩
          obtain ⟨x, hx, hxq⟩ := h
          exact PeerId.lt_not_eqv (hw.1 x hx)
            (PeerId.eqv_trans (PeerId.eqv_trans hyp he) (PeerId.eqv_symm hxq))
        · rintro ⟨h | h, h'⟩
          · exact absurd (PeerId.eqv_trans (PeerId.eqv_symm hyp) h) h'
          · exact h

theorem length_insert {s : PeerSet} {p : PeerId} :
    (insert s p).length = if find s p then s.length else s.length + 1 := by
  induction s with
  | nil => simp [insert, find]
  | cons y ys ih =>
    unfold insert find
    split
    · simp [ih]; split <;> simp
    · split <;> simp_all

theorem insert_of_find {s : PeerSet} {p : PeerId} (h : find s p = true) : insert s p = s := by
  induction s with
  | nil => simp [find] at h
  | cons y ys ih =>
    unfold find at h
    unfold insert
    split <;> simp_all

/-- Two sets with the same members have the same size (and pairwise equal keys). -/
theorem length_eq_of_mem_iff {s t : PeerSet} (hs : WF s) (ht : WF t)
    (h : ∀ p, Mem s p ↔ Mem t p) : s.length = t.length := by
  induction s generalizing t with
  | nil =>
    cases t with
    | nil => rfl
    | cons y ys =>
      obtain ⟨x, hx, _⟩ := (h y).mpr ⟨y, List.mem_cons_self, PeerId.eqv_refl y⟩
      cases hx
  | cons x xs ih =>
    have hmx : Mem t x := (h x).mp ⟨x, List.mem_cons_self, PeerId.eqv_refl x⟩
    have hf := (find_iff ht).mpr hmx
    have hlen : (erase t x).length + 1 = t.length := by
      clear h ih hs hmx
      induction t with
      | nil => simp [find] at hf
      | cons y ys ih2 =>
        have hw := (List.pairwise_cons.mp ht).2
        unfold find at hf
        unfold erase
        split
        · rename_i hy; rw [if_pos hy] at hf; simp [ih2 hw hf]
        · rename_i hy; rw [if_neg hy] at hf; simp at hf; simp [hf]
    have hw := List.pairwise_cons.mp hs
    rw [List.length_cons, ← hlen]
    congr 1
    apply ih hw.2 (wf_erase ht)
    intro p
    rw [mem_erase ht, ← h p]
    constructor
    · rintro ⟨z, hz, hzp⟩
      exact ⟨⟨z, List.mem_cons_of_mem _ hz, hzp⟩, fun he =>
        PeerId.lt_not_eqv (hw.1 z hz) (PeerId.eqv_trans he (PeerId.eqv_symm hzp))⟩
    · rintro ⟨⟨z, hz, hzp⟩, hne⟩
      rcases List.mem_cons.mp hz with rfl | hz
      · exact absurd hzp hne
      · exact ⟨z, hz, hzp⟩

/-- A subset with the same size has the same members. -/
theorem mem_iff_of_subset_length {s t : PeerSet} (hs : WF s) (ht : WF t)
    (h : ∀ p, Mem s p → Mem t p) (hl : s.length = t.length) : ∀ p, Mem s p ↔ Mem t p := by
  intro p
  refine ⟨h p, fun hp => ?_⟩
  apply Classical.byContradiction
  intro hn
  -- insert p into s: a larger subset of t
  have sub_le : ∀ (s t : PeerSet), WF s → WF t → (∀ p, Mem s p → Mem t p) → s.length ≤ t.length := by
    intro s
    induction s with
    | nil => simp
    | cons x xs ih =>
      intro t hs ht h
      have hmx : Mem t x := h x ⟨x, List.mem_cons_self, PeerId.eqv_refl x⟩
      have hf := (find_iff ht).mpr hmx
      have hlen : (erase t x).length + 1 = t.length := by
        clear h ih hs hmx
        induction t with
        | nil => simp [find] at hf
        | cons y ys ih2 =>
          have hw := (List.pairwise_cons.mp ht).2
          unfold find at hf
          unfold erase
          split
          · rename_i hy; rw [if_pos hy] at hf; simp [ih2 hw hf]
          · rename_i hy; rw [if_neg hy] at hf; simp at hf; simp [hf]
      have hw := List.pairwise_cons.mp hs
      have := ih (erase t x) hw.2 (wf_erase ht) (by
        intro q hq
        rw [mem_erase ht]
        obtain ⟨z, hz, hzq⟩ := hq
        exact ⟨h q ⟨z, List.mem_cons_of_mem _ hz, hzq⟩, fun he =>
          PeerId.lt_not_eqv (hw.1 z hz) (PeerId.eqv_trans he (PeerId.eqv_symm hzq))⟩)
      simp only [List.length_cons]; omega
  have h1 := sub_le (insert s p) t (wf_insert hs) ht (by
    intro q hq
    rcases mem_insert.mp hq with hq | hq
    · exact h q hq
    · obtain ⟨z, hz, hzp⟩ := hp
      exact ⟨z, hz, PeerId.eqv_trans hzp hq⟩)
  rw [length_insert] at h1
  have : find s p = false := by
    cases hf : find s p with
    | false => rfl
    | true => exact absurd ((find_iff hs).mp hf) hn
  rw [this] at h1
  simp at h1
  omega

/-- Inserting the elements of a sorted list one by one into a smaller sorted set appends them. -/
theorem foldl_insert_sorted (xs : List PeerId) (acc : PeerSet)
    (h : WF (acc ++ xs)) : xs.foldl insert acc = acc ++ xs := by
  induction xs generalizing acc with
  | nil => simp
  | cons x xs ih =>
    have hi : insert acc x = acc ++ [x] := by
      have hlt : ∀ a ∈ acc, PeerId.lt a x = true := by
        intro a ha
        exact (List.pairwise_append.mp h).2.2 a ha x List.mem_cons_self
      clear h ih
      induction acc with
      | nil => simp [insert]
      | cons y ys ih2 =>
        unfold insert
        rw [if_pos (hlt y List.mem_cons_self), ih2 (fun a ha => hlt a (List.mem_cons_of_mem _ ha))]
        rfl
    rw [List.foldl_cons, hi, ih]
    · simp
    · simpa using h

end PeerSet

/-- configuration.h:161-295 `class Configuration` (only member `_peers`). -/
structure Configuration where
  peers : PeerSet := []
deriving DecidableEq, Repr, Inhabited

namespace Configuration

/-- configuration.h:168-172 constructor from a vector. -/
def ofVector (v : List PeerId) : Configuration := ⟨v.foldl PeerSet.insert []⟩

/-- configuration.h:193-194 -/
def empty (c : Configuration) : Bool := c.peers.isEmpty
def size (c : Configuration) : Nat := c.peers.length

/-- configuration.h:219-221 `add_peer` (returns whether newly added). -/
def addPeer (c : Configuration) (p : PeerId) : Configuration × Bool :=
  (⟨c.peers.insert p⟩, !c.peers.find p)

/-- configuration.h:225-227 `remove_peer` (returns whether removed). -/
def removePeer (c : Configuration) (p : PeerId) : Configuration × Bool :=
  (⟨c.peers.erase p⟩, c.peers.find p)

/-- configuration.h:230-232 -/
def contains (c : Configuration) (p : PeerId) : Bool := c.peers.find p

/-- configuration.h:235-242 `contains(vector)`: loop with early return. -/
def containsAll (c : Configuration) : List PeerId → Bool
  | [] => true
  | p :: ps => if !c.contains p then false else containsAll c ps

/-- configuration.h:245-254 `equals(vector)`. -/
def equalsVectorGo (c : Configuration) (acc : PeerSet) : List PeerId → Bool
  | [] => acc.length == c.peers.length
  | p :: ps => if !c.contains p then false else equalsVectorGo c (acc.insert p) ps

def equalsVector (c : Configuration) (v : List PeerId) : Bool := equalsVectorGo c [] v

/-- configuration.h:256-268 `equals(Configuration)`. -/
def equals (c rhs : Configuration) : Bool :=
  if c.size != rhs.size then false else containsAll rhs c.peers

/-- configuration.h:273-286 `diffs`: returns (included, excluded). -/
def diffs (c rhs : Configuration) : Configuration × Configuration :=
  (⟨rhs.peers.foldl PeerSet.erase c.peers⟩, ⟨c.peers.foldl PeerSet.erase rhs.peers⟩)

/-- Every configuration that the API can build is well formed. -/
def WF (c : Configuration) : Prop := PeerSet.WF c.peers

theorem foldl_insert_wf (v : List PeerId) {s : PeerSet} (h : PeerSet.WF s) :
    PeerSet.WF (v.foldl PeerSet.insert s) := by
  induction v generalizing s with
  | nil => exact h
  | cons p ps ih => exact ih (PeerSet.wf_insert h)

theorem foldl_erase_wf (v : List PeerId) {s : PeerSet} (h : PeerSet.WF s) :
    PeerSet.WF (v.foldl PeerSet.erase s) := by
  induction v generalizing s with
  | nil => exact h
  | cons p ps ih => exact ih (PeerSet.wf_erase h)

theorem foldl_insert_mem (v : List PeerId) (s : PeerSet) (q : PeerId) :
    PeerSet.Mem (v.foldl PeerSet.insert s) q ↔ PeerSet.Mem s q ∨ PeerSet.Mem v q := by
  induction v generalizing s with
  | nil => simp [PeerSet.Mem]
  | cons p ps ih =>
    rw [List.foldl_cons, ih, PeerSet.mem_insert]
    simp [PeerSet.Mem, or_assoc]

theorem foldl_erase_mem (v : List PeerId) {s : PeerSet} (hw : PeerSet.WF s) (q : PeerId) :
    PeerSet.Mem (v.foldl PeerSet.erase s) q ↔ PeerSet.Mem s q ∧ ¬ PeerSet.Mem v q := by
  induction v generalizing s with
  | nil => simp [PeerSet.Mem]
  | cons p ps ih =>
    rw [List.foldl_cons, ih (PeerSet.wf_erase hw), PeerSet.mem_erase hw]
    simp [PeerSet.Mem, and_assoc]

theorem wf_ofVector (v : List PeerId) : (ofVector v).WF :=
  foldl_insert_wf v (by simp [PeerSet.WF])

theorem wf_addPeer {c : Configuration} (h : c.WF) (p) : (c.addPeer p).1.WF := PeerSet.wf_insert h
theorem wf_removePeer {c : Configuration} (h : c.WF) (p) : (c.removePeer p).1.WF := PeerSet.wf_erase h
theorem wf_diffs {c d : Configuration} (hc : c.WF) (hd : d.WF) :
    (c.diffs d).1.WF ∧ (c.diffs d).2.WF := ⟨foldl_erase_wf _ hc, foldl_erase_wf _ hd⟩

theorem containsAll_iff {c : Configuration} (h : c.WF) (v : List PeerId) :
    c.containsAll v = true ↔ ∀ p ∈ v, PeerSet.Mem c.peers p := by
  induction v with
  | nil => simp [containsAll]
  | cons p ps ih =>
    unfold containsAll
    simp only [contains, List.mem_cons, forall_eq_or_imp]
    rw [← PeerSet.find_iff h, ← ih]
    by_cases hf : c.peers.find p = true
    · simp [hf]
    · simp [hf]

theorem equalsVectorGo_iff {c : Configuration} (h : c.WF) (v : List PeerId) (acc : PeerSet)
    (ha : PeerSet.WF acc) :
    c.equalsVectorGo acc v = true ↔ (∀ p ∈ v, PeerSet.Mem c.peers p) ∧
      (v.foldl PeerSet.insert acc).length = c.peers.length := by
  induction v generalizing acc with
  | nil => simp [equalsVectorGo]
  | cons p ps ih =>
    unfold equalsVectorGo
    simp only [contains, List.mem_cons, forall_eq_or_imp, List.foldl_cons]
    rw [← PeerSet.find_iff h]
    by_cases hf : c.peers.find p = true
    rotate_left
    · simp [hf]
    · simp [hf, ih (acc.insert p) (PeerSet.wf_insert ha)]

end Configuration
end Braft
