import Verif.PeerText
/-!
# C38, C39: text form and set algebra of peers and configurations

Specification vocabulary: two peers are *the same peer* when `operator==` holds
(`PeerId.eqv`, i.e. same ip, port and idx), and `p` belongs to a configuration when the
configuration lists a peer that is the same peer as `p` (`InConf`). Every configuration the API can
build is `Configuration.WF` (`wf_ofVector`, `wf_addPeer`, `wf_removePeer`, `wf_diffs`).
-/
set_option linter.unusedVariables false
namespace Braft.Props
open Braft Braft.Text

/-- Specification of membership, by listing. -/
def InConf (c : Configuration) (p : PeerId) : Prop :=
  ∃ x ∈ c.peers, x.ip = p.ip ∧ x.port = p.port ∧ x.idx = p.idx

theorem inConf_iff_mem {c : Configuration} {p : PeerId} : InConf c p ↔ PeerSet.Mem c.peers p := by
  unfold InConf PeerSet.Mem
  simp only [PeerId.eqv_iff]

/-! ## C39 -/

/-- The configurations obtainable through the public API. -/
inductive Built : Configuration → Prop
  | ofVector (v) : Built (Configuration.ofVector v)
  | add {c} (p) : Built c → Built (c.addPeer p).1
  | remove {c} (p) : Built c → Built (c.removePeer p).1
  | included {c d} : Built c → Built d → Built (c.diffs d).1
  | excluded {c d} : Built c → Built d → Built (c.diffs d).2

theorem Built.wf {c : Configuration} (h : Built c) : c.WF := by
  induction h with
  | ofVector v => exact Configuration.wf_ofVector v
  | add p _ ih => exact Configuration.wf_addPeer ih p
  | remove p _ ih => exact Configuration.wf_removePeer ih p
  | included _ _ ih1 ih2 => exact (Configuration.wf_diffs ih1 ih2).1
  | excluded _ _ ih1 ih2 => exact (Configuration.wf_diffs ih1 ih2).2

/-- `contains(p)` is membership. -/
theorem C39_contains {c : Configuration} (h : Built c) (p : PeerId) :
    c.contains p = true ↔ InConf c p := by
  rw [inConf_iff_mem]; exact PeerSet.find_iff h.wf

/-- `contains(vector)` is inclusion. -/
theorem C39_contains_all {c : Configuration} (h : Built c) (v : List PeerId) :
    c.containsAll v = true ↔ ∀ p ∈ v, InConf c p := by
  simp only [inConf_iff_mem]; exact Configuration.containsAll_iff h.wf v

/-- A configuration built from a vector holds exactly the vector's peers. -/
theorem C39_of_vector (v : List PeerId) (p : PeerId) :
    InConf (Configuration.ofVector v) p ↔ ∃ x ∈ v, x.ip = p.ip ∧ x.port = p.port ∧ x.idx = p.idx := by
  rw [inConf_iff_mem]
  unfold Configuration.ofVector
  rw [Configuration.foldl_insert_mem]
  simp [PeerSet.Mem, PeerId.eqv_iff]

/-- `add_peer` adds exactly that peer, reports whether it was new, and the size follows. -/
theorem C39_add {c : Configuration} (h : Built c) (p q : PeerId) :
    (InConf (c.addPeer p).1 q ↔ InConf c q ∨ (p.ip = q.ip ∧ p.port = q.port ∧ p.idx = q.idx)) ∧
    ((c.addPeer p).2 = true ↔ ¬ InConf c p) ∧
    (c.addPeer p).1.size = c.size + (if (c.addPeer p).2 then 1 else 0) := by
  refine ⟨?_, ?_, ?_⟩
  · rw [inConf_iff_mem, inConf_iff_mem, ← PeerId.eqv_iff]; exact PeerSet.mem_insert
  · rw [← C39_contains h]; simp [Configuration.addPeer, Configuration.contains]
  · simp only [Configuration.size, Configuration.addPeer, PeerSet.length_insert]
    by_cases hf : PeerSet.find c.peers p = true <;> simp [hf]

/-- A peer that is already in (whatever its role) is left as it was. -/
theorem C39_add_existing {c : Configuration} (h : Built c) (p : PeerId) (hp : InConf c p) :
    (c.addPeer p).1 = c := by
  have := (C39_contains h p).mpr hp
  unfold Configuration.addPeer
  unfold Configuration.contains at this
  rw [PeerSet.insert_of_find this]

/-- `remove_peer` removes exactly that peer and reports whether it was there. -/
theorem C39_remove {c : Configuration} (h : Built c) (p q : PeerId) :
    (InConf (c.removePeer p).1 q ↔ InConf c q ∧ ¬ (p.ip = q.ip ∧ p.port = q.port ∧ p.idx = q.idx)) ∧
    ((c.removePeer p).2 = true ↔ InConf c p) := by
  refine ⟨?_, ?_⟩
  · rw [inConf_iff_mem, inConf_iff_mem, ← PeerId.eqv_iff]; exact PeerSet.mem_erase h.wf
  · exact C39_contains h p

/-- `equals` is equality of the sets of peers. -/
theorem C39_equals {c d : Configuration} (hc : Built c) (hd : Built d) :
    c.equals d = true ↔ ∀ p, InConf c p ↔ InConf d p := by
  simp only [inConf_iff_mem]
  unfold Configuration.equals Configuration.size
  constructor
  · intro h
    split at h
    · cases h
    · rename_i hl
      simp only [bne_iff_ne, ne_eq, Decidable.not_not] at hl
      rw [Configuration.containsAll_iff hd.wf] at h
      apply PeerSet.mem_iff_of_subset_length hc.wf hd.wf _ hl
      rintro p ⟨x, hx, he⟩
      obtain ⟨y, hy, hye⟩ := h x hx
      exact ⟨y, hy, PeerId.eqv_trans hye he⟩
  · intro h
    rw [if_neg (by simp; exact PeerSet.length_eq_of_mem_iff hc.wf hd.wf h),
      Configuration.containsAll_iff hd.wf]
    intro p hp
    exact (h p).mp ⟨p, hp, PeerId.eqv_refl p⟩

/-- `equals(vector)` is equality with the set of the vector's peers. -/
theorem C39_equals_vector {c : Configuration} (hc : Built c) (v : List PeerId) :
    c.equalsVector v = true ↔ ∀ p, InConf c p ↔ InConf (Configuration.ofVector v) p := by
  rw [← C39_equals hc (.ofVector v)]
  unfold Configuration.equalsVector
  rw [Configuration.equalsVectorGo_iff hc.wf v [] (by simp [PeerSet.WF])]
  rw [C39_equals hc (.ofVector v)]
  simp only [inConf_iff_mem]
  have hw := (Built.ofVector v).wf
  constructor
  · rintro ⟨h1, h2⟩ p
    refine Iff.symm (PeerSet.mem_iff_of_subset_length hw hc.wf ?_ h2 p)
    intro q hq
    unfold Configuration.ofVector at hq
    rw [Configuration.foldl_insert_mem] at hq
    rcases hq with ⟨x, hx, _⟩ | ⟨x, hx, he⟩
    · cases hx
    · obtain ⟨y, hy, hye⟩ := h1 x hx
      exact ⟨y, hy, PeerId.eqv_trans hye he⟩
  · intro h
    refine ⟨fun p hp => (h p).mpr ?_, ?_⟩
    · unfold Configuration.ofVector
      rw [Configuration.foldl_insert_mem]
      exact .inr ⟨p, hp, PeerId.eqv_refl p⟩
    · exact PeerSet.length_eq_of_mem_iff hw hc.wf (fun p => (h p).symm)

/-- `diffs`: `included` is the set difference this − rhs, `excluded` is rhs − this. -/
theorem C39_diffs {c d : Configuration} (hc : Built c) (hd : Built d) (p : PeerId) :
    (InConf (c.diffs d).1 p ↔ InConf c p ∧ ¬ InConf d p) ∧
    (InConf (c.diffs d).2 p ↔ InConf d p ∧ ¬ InConf c p) := by
  simp only [inConf_iff_mem]
  exact ⟨Configuration.foldl_erase_mem _ hc.wf p, Configuration.foldl_erase_mem _ hd.wf p⟩

/-- Hence new = (old minus removed) plus added, the identity membership changes rely on
(`new.diffs(old, &adding, &removing)`). -/
theorem C39_new_from_old {new old : Configuration} (hn : Built new) (ho : Built old) (p : PeerId) :
    InConf new p ↔ (InConf old p ∧ ¬ InConf (new.diffs old).2 p) ∨ InConf (new.diffs old).1 p := by
  rw [(C39_diffs hn ho p).1, (C39_diffs hn ho p).2]
  by_cases h1 : InConf new p <;> by_cases h2 : InConf old p <;> simp [h1, h2]

private def pA : PeerId := ⟨1, 80, 0, .replica⟩
private def pB : PeerId := ⟨2, 80, 0, .replica⟩
private def pC : PeerId := ⟨2, 80, 1, .witness⟩

/-- Replacing A by C in {A,B}: included = {C}, excluded = {A}. -/
example : ∃ n o, Built n ∧ Built o ∧ n.diffs o = (⟨[pC]⟩, ⟨[pA]⟩) ∧ n.equals o = false :=
  ⟨Configuration.ofVector [pC, pB, pC], Configuration.ofVector [pB, pA], .ofVector _, .ofVector _,
    by decide, by decide⟩

/-- Roles are not compared: adding A again as a witness changes nothing. -/
example : ((Configuration.ofVector [pA, pB]).addPeer { pA with role := .witness })
    = (Configuration.ofVector [pA, pB], false) := by decide

/-! ## C38 -/

/-- Parsing the text of a peer gives back the peer, role included, for every IPv4 address and every
`int` port and index. -/
theorem C38_peer_round_trip (p : PeerId) (hip : p.ip < 2 ^ 32)
    (hport : -(2 ^ 31) ≤ p.port ∧ p.port < 2 ^ 31) (hidx : -(2 ^ 31) ≤ p.idx ∧ p.idx < 2 ^ 31) :
    parsePeer (printPeer p) = .ok p := by
  apply parsePeer_printPeer
  refine ⟨by omega, ?_, ?_⟩ <;> simp [inInt32] <;> omega

/-- A text is read as a configuration only if every nonempty field is read as a peer, and the configuration then lists exactly
those peers; if the first field that is not read as a peer merely fails, so does the whole. -/
theorem C38_conf_fields (s : List Char) :
    (∀ c, parseConf s = .ok c →
      (∀ f ∈ splitOn ',' s, f ≠ [] → ∃ p, parsePeer f = .ok p ∧ InConf c p) ∧
      (∀ p, InConf c p → ∃ f ∈ splitOn ',' s, f ≠ [] ∧ ∃ q, parsePeer f = .ok q ∧ q.ip = p.ip ∧ q.port = p.port ∧ q.idx = p.idx)) ∧
    ((∀ f ∈ splitOn ',' s, f ≠ [] → parsePeer f ≠ .ub) → (∃ f ∈ splitOn ',' s, f ≠ [] ∧ parsePeer f = .fail) →
      parseConf s = .fail) := by
  have key : ∀ (l : List (List Char)) (c0 : Configuration),
      (∀ c, parseFields l c0 = .ok c →
        (∀ p, InConf c0 p → InConf c p) ∧ (∀ f ∈ l, ∃ p, parsePeer f = .ok p ∧ InConf c p) ∧
        (∀ p, InConf c p → InConf c0 p ∨ ∃ f ∈ l, ∃ q, parsePeer f = .ok q ∧ q.ip = p.ip ∧ q.port = p.port ∧ q.idx = p.idx)) ∧
      ((∀ f ∈ l, parsePeer f ≠ .ub) → (∃ f ∈ l, parsePeer f = .fail) → parseFields l c0 = .fail) := by
    intro l
    induction l with
    | nil =>
      intro c0
      refine ⟨?_, ?_⟩
      · intro c h
        unfold parseFields at h; cases h
        exact ⟨fun p h => h, (fun f hf => by cases hf), fun p h => Or.inl h⟩
      · rintro _ ⟨f, hf, _⟩; cases hf
    | cons f l ih =>
      intro c0
      have hmem : ∀ p q, InConf (c0.addPeer p).1 q ↔ InConf c0 q ∨ (p.ip = q.ip ∧ p.port = q.port ∧ p.idx = q.idx) := by
        intro p q
        rw [inConf_iff_mem, inConf_iff_mem, ← PeerId.eqv_iff]; exact PeerSet.mem_insert
      refine ⟨?_, ?_⟩
      · intro c h
        unfold parseFields at h
        cases hp : parsePeer f with
        | fail => rw [hp] at h; cases h
        | ub => rw [hp] at h; cases h
        | ok p =>
          rw [hp] at h
          obtain ⟨h1, h2, h3⟩ := (ih (c0.addPeer p).1).1 c h
          refine ⟨fun q hq => h1 q ((hmem p q).mpr (Or.inl hq)), ?_, ?_⟩
          · intro g hg
            rcases List.mem_cons.mp hg with e | e
            · subst e; exact ⟨p, hp, h1 p ((hmem p p).mpr (Or.inr ⟨rfl, rfl, rfl⟩))⟩
            · exact h2 g e
          · intro q hq
            rcases h3 q hq with h | ⟨g, hg, x⟩
            · rcases (hmem p q).mp h with h | h
              · exact Or.inl h
              · exact Or.inr ⟨f, List.mem_cons_self, p, hp, h⟩
            · exact Or.inr ⟨g, List.mem_cons_of_mem _ hg, x⟩
      · rintro hu ⟨g, hg, hgf⟩
        unfold parseFields
        cases hp : parsePeer f with
        | fail => rfl
        | ub => exact absurd hp (hu f List.mem_cons_self)
        | ok p =>
          dsimp only
          apply (ih _).2 (fun x hx => hu x (List.mem_cons_of_mem _ hx))
          rcases List.mem_cons.mp hg with e | e
          · subst e; rw [hp] at hgf; cases hgf
          · exact ⟨g, e, hgf⟩
  unfold parseConf
  have hk := key ((splitOn ',' s).filter (· ≠ [])) {}
  refine ⟨?_, ?_⟩
  · intro c h
    obtain ⟨_, h2, h3⟩ := hk.1 c h
    refine ⟨fun f hf hne => h2 f (List.mem_filter.mpr ⟨hf, by simpa using hne⟩), ?_⟩
    intro p hp
    rcases h3 p hp with ⟨x, hx, _⟩ | ⟨f, hf, hq⟩
    · cases hx
    · have := List.mem_filter.mp hf
      exact ⟨f, this.1, by simpa using this.2, hq⟩
  · rintro hu ⟨f, hf, hne, hff⟩
    exact hk.2 (fun g hg => hu g (List.mem_filter.mp hg).1 (by simpa using (List.mem_filter.mp hg).2))
      ⟨f, List.mem_filter.mpr ⟨hf, by simpa using hne⟩, hff⟩

example : (∃ c, parseConf "1.2.3.4:80,,1.2.3.5:81:1".toList = .ok c ∧ c.peers.length = 2) ∧
    parseConf "1.2.3.4:80,x,1.2.3.5:81:1".toList = .fail := ⟨⟨_, rfl, by decide⟩, by decide +kernel⟩

/-- Parsing the text of a configuration gives back the configuration: same peers with the same
roles, in the same order. -/
theorem C38_configuration_round_trip (c : Configuration) (hb : Built c)
    (hf : ∀ p ∈ c.peers, p.ip < 2 ^ 32 ∧ (-(2 ^ 31) ≤ p.port ∧ p.port < 2 ^ 31) ∧
      (-(2 ^ 31) ≤ p.idx ∧ p.idx < 2 ^ 31)) :
    parseConf (printPeers c.peers) = .ok c := by
  have hfit : ∀ p ∈ c.peers, Fits p := by
    intro p hp
    obtain ⟨h1, h2, h3⟩ := hf p hp
    refine ⟨by omega, ?_, ?_⟩ <;> simp [inInt32] <;> omega
  have hw := hb.wf
  cases c with
  | mk peers =>
    simp only at hf hfit ⊢
    unfold Configuration.WF at hw
    by_cases hne : peers = []
    · subst hne; decide
    · unfold parseConf
      rw [splitOn_printPeers peers hne, List.filter_eq_self.mpr, parseFields_print peers hfit]
      · rw [PeerSet.foldl_insert_sorted]
        · simp
        · simpa using hw
      · intro f hm
        obtain ⟨p, _, rfl⟩ := List.mem_map.mp hm
        simp [printPeer_ne_nil]

/-- Two different peers never have the same text. -/
theorem C38_text_injective (p q : PeerId)
    (hp : p.ip < 2 ^ 32 ∧ (-(2 ^ 31) ≤ p.port ∧ p.port < 2 ^ 31) ∧ (-(2 ^ 31) ≤ p.idx ∧ p.idx < 2 ^ 31))
    (hq : q.ip < 2 ^ 32 ∧ (-(2 ^ 31) ≤ q.port ∧ q.port < 2 ^ 31) ∧ (-(2 ^ 31) ≤ q.idx ∧ q.idx < 2 ^ 31))
    (h : printPeer p = printPeer q) : p = q := by
  have h1 := C38_peer_round_trip p hp.1 hp.2.1 hp.2.2
  have h2 := C38_peer_round_trip q hq.1 hq.2.1 hq.2.2
  rw [h, h2] at h1
  cases h1; rfl

/-- A role field other than 0 or 1 is refused. -/
theorem C38_role_out_of_range (ip : Nat) (port idx v : Int) (hip : ip < 2 ^ 32)
    (hport : -(2 ^ 31) ≤ port ∧ port < 2 ^ 31) (hidx : -(2 ^ 31) ≤ idx ∧ idx < 2 ^ 31)
    (hv : -(2 ^ 31) ≤ v ∧ v < 2 ^ 31) (h0 : v ≠ 0) (h1 : v ≠ 1) :
    parsePeer (ip2str ip ++ ':' :: (printInt port ++ ':' :: (printInt idx ++ ':' :: printInt v)))
      = .fail := by
  have hp : inInt32 port = true := by simp [inInt32]; omega
  have hx : inInt32 idx = true := by simp [inInt32]; omega
  have hvv : inInt32 v = true := by simp [inInt32]; omega
  have hipc : ∀ c ∈ ip2str ip, (c != ':') = true := by
    intro c hc
    rw [bne_iff_ne]; intro he; subst he
    rcases ip2str_chars hc with h | h <;> revert h <;> decide
  have hr : ∀ (s : List Char) (x : Char), (':' :: s).head? = some x → (x != ':') = false := by
    intro s x hx; simp at hx; subst hx; decide
  have hr2 : ∀ (s : List Char) (x : Char), (':' :: s).head? = some x → isDigit x = false := by
    intro s x hx; simp at hx; subst hx; decide
  have htail : parseTail (':' :: (printInt idx ++ ':' :: printInt v)) = .ok (idx, v) := by
    unfold parseTail
    rw [scanColons_cons head_printInt]
    simp only [scanInt_print _ _ (hr2 _), hx, Bool.not_true, Bool.false_eq_true, if_false]
    have : scanColons (':' :: printInt v) = some (printInt v) :=
      scanColons_cons (fun x hx => head_printInt (i := v) (r := []) x (by simpa using hx))
    rw [this]
    have h3 : scanInt (printInt v) = some (v, []) := by
      have := scanInt_print v [] (by simp)
      simpa using this
    simp [h3, hvv]
  unfold parsePeer
  have hnul : ∀ s : List Char, s = (ip2str ip ++ ':' :: (printInt port ++ ':' :: (printInt idx ++ ':' :: printInt v))) →
      s.takeWhile (· != Char.ofNat 0) = s := by
    intro s hs
    have := takeWhile_append_all (p := (· != Char.ofNat 0)) (l := s) (r := [])
      (by
        intro c hc
        rw [bne_iff_ne]; intro he; subst he
        rw [hs] at hc
        simp only [List.mem_append, List.mem_cons] at hc
        rcases hc with h | h | h | h | h | h | h
        · rcases ip2str_chars h with h | h <;> revert h <;> decide
        all_goals first
          | (revert h; decide)
          | (rcases printInt_chars _ _ h with h | h <;> revert h <;> decide))
      (by simp)
    simpa using this
  rw [hnul _ rfl]
  simp only
  rw [takeWhile_append_all hipc (hr _), dropWhile_append_all hipc (hr _)]
  rw [if_neg (ip2str_ne_nil _), if_neg (by have := ip2str_len (ip := ip) (by omega); omega)]
  rw [scanColons_cons head_printInt]
  simp only [scanInt_print _ _ (hr2 _), hp, Bool.not_true, Bool.false_eq_true, if_false, htail]
  rw [if_pos (by omega)]

/-- Every accepted text denotes an IPv4 end point with 32-bit port and index, so printing it and
parsing again gives the same peer. -/
theorem C38_accepted_text (str : List Char) (p : PeerId) (h : parsePeer str = .ok p) :
    (p.ip < 2 ^ 32 ∧ (-(2 ^ 31) ≤ p.port ∧ p.port < 2 ^ 31) ∧ (-(2 ^ 31) ≤ p.idx ∧ p.idx < 2 ^ 31)) ∧
    parsePeer (printPeer p) = .ok p := by
  have key : p.ip < 2 ^ 32 ∧ (-(2 ^ 31) ≤ p.port ∧ p.port < 2 ^ 31) ∧
      (-(2 ^ 31) ≤ p.idx ∧ p.idx < 2 ^ 31) := by
    have hoct : ∀ (f : List Char) (a : Nat), parseOctet f = some a → a ≤ 255 := by
      intro f a ha
      unfold parseOctet at ha
      split at ha
      · rename_i hc; cases ha; exact hc.2.2.2.2
      · cases ha
    have hipr : ∀ (s : List Char) (ip : Nat), str2ip s = some ip → ip < 2 ^ 32 := by
      intro s ip hs
      unfold str2ip at hs
      split at hs
      · rename_i a b c d heq
        cases hs
        have : ∀ x, some x ∈ (splitOn '.' (s.dropWhile isSpace)).map parseOctet → x ≤ 255 := by
          intro x hx
          obtain ⟨f, _, hf⟩ := List.mem_map.mp hx
          exact hoct f x hf
        rw [heq] at this
        have h1 := this a (by simp)
        have h2 := this b (by simp)
        have h3 := this c (by simp)
        have h4 := this d (by simp)
        omega
      · cases hs
    have hint : ∀ v : Int, ¬ (!inInt32 v) = true → -(2 ^ 31) ≤ v ∧ v < 2 ^ 31 := by
      intro v hv
      simp [inInt32] at hv
      omega
    have htail : ∀ (s : List Char) (idx v : Int), parseTail s = .ok (idx, v) →
        -(2 ^ 31) ≤ idx ∧ idx < 2 ^ 31 := by
      intro s idx v hs
      unfold parseTail at hs
      split at hs
      · cases hs; decide
      · split at hs
        · cases hs; decide
        · split at hs
          · cases hs
          · rename_i hin
            split at hs
            · cases hs; exact hint _ hin
            · split at hs
              · cases hs; exact hint _ hin
              · split at hs
                · cases hs
                · cases hs; exact hint _ hin
    unfold parsePeer at h
    simp only at h
    split at h
    · cases h
    · split at h
      · cases h
      · split at h
        · cases h
        · split at h
          · cases h
          · rename_i port s2 _
            split at h
            · cases h
            · rename_i hport
              split at h
              · cases h
              · cases h
              · rename_i idx v htl
                split at h
                · cases h
                · split at h
                  · cases h
                  · rename_i ip hip
                    cases h
                    exact ⟨hipr _ _ hip, hint _ hport, htail _ _ _ htl⟩
  exact ⟨key, C38_peer_round_trip p key.1 key.2.1 key.2.2⟩

/-- A text accepted although it is not in canonical form. -/
example : parsePeer "1.2.3.4::-7".toList = .ok ⟨16909060, -7, 0, .replica⟩ := by decide

/-- Undefined behaviour in `PeerId::parse`: any text whose part before the first colon has 64
characters or more overflows `char ip_str[64]` (the scanf conversion has no width). So "parsing
always returns a verdict" is false of the code. -/
theorem C38_long_host_overflows (s : List Char) (h : 64 ≤ s.length)
    (hc : ∀ c ∈ s, c ≠ ':' ∧ c ≠ Char.ofNat 0) (rest : List Char) :
    parsePeer (s ++ rest) = .ub := by
  have key : ∀ (r : List Char), 64 ≤ ((s ++ r).takeWhile (· != ':')).length ∧
      ((s ++ r).takeWhile (· != ':')) ≠ [] := by
    intro r
    have : ∀ s' : List Char, (∀ c ∈ s', c ≠ ':' ∧ c ≠ Char.ofNat 0) →
        s'.length ≤ ((s' ++ r).takeWhile (· != ':')).length := by
      intro s' hs'
      induction s' with
      | nil => simp
      | cons a as ih =>
        have ha : (a != ':') = true := by rw [bne_iff_ne]; exact (hs' a List.mem_cons_self).1
        simp only [List.cons_append, List.takeWhile_cons, ha, if_true, List.length_cons]
        have := ih (fun c hc => hs' c (List.mem_cons_of_mem _ hc))
        omega
    have h1 := this s hc
    refine ⟨by omega, fun he => ?_⟩
    rw [he] at h1; simp at h1; subst h1; simp at h
  have hnul : ∃ r', (s ++ rest).takeWhile (· != Char.ofNat 0) = s ++ r' := by
    refine ⟨rest.takeWhile (· != Char.ofNat 0), ?_⟩
    have : ∀ s' : List Char, (∀ c ∈ s', c ≠ ':' ∧ c ≠ Char.ofNat 0) →
        (s' ++ rest).takeWhile (· != Char.ofNat 0) = s' ++ rest.takeWhile (· != Char.ofNat 0) := by
      intro s' hs'
      induction s' with
      | nil => simp
      | cons a as ih =>
        have ha : (a != Char.ofNat 0) = true := by rw [bne_iff_ne]; exact (hs' a List.mem_cons_self).2
        simp only [List.cons_append, List.takeWhile_cons, ha, if_true]
        rw [ih (fun c hc => hs' c (List.mem_cons_of_mem _ hc))]
    exact this s hc
  obtain ⟨r', hr'⟩ := hnul
  unfold parsePeer
  rw [hr']
  simp only
  rw [if_neg (key r').2, if_pos (key r').1]

/-- The hypotheses are met: a three-peer configuration with a witness, and text round trips. -/
example : Built (Configuration.ofVector [⟨2130706433, 8100, 0, .replica⟩, ⟨167772161, -1, 7, .witness⟩]) ∧
    printPeers (Configuration.ofVector [⟨2130706433, 8100, 0, .replica⟩, ⟨167772161, -1, 7, .witness⟩]).peers
      = "10.0.0.1:-1:7:1,127.0.0.1:8100:0:0".toList := by
  refine ⟨.ofVector _, ?_⟩
  simp [Configuration.ofVector, PeerSet.insert, PeerId.lt, PeerId.addrLt, PeerId.addrEq, printPeers,
    printPeer, ip2str, printInt, printNat, roleInt, digitChar, Char.ofNat]

end Braft.Props
