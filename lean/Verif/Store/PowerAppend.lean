import Verif.Store.PowerInv
/- Power failures during append_entries. -/
set_option linter.unusedVariables false
set_option linter.unusedSimpArgs false
set_option linter.unusedSectionVars false

namespace Braft.Store
open Braft.Props

variable {K : Type}

/-- `Rep` with its witnesses. -/
structure At (c : Codec K) (m : Mem) (d : Disk) (A : Arr K) (base : Nat) (chunks : List (List (Entry K)))
    (oc : Option (List (Entry K))) : Prop where
  good : Good c base chunks oc
  disk : d = c.mkDisk A.first base chunks oc []
  le : base ≤ A.first
  live : Live A.first base chunks oc
  ents : A.ents = (allOf chunks oc).drop (A.first - base)
  mem : m = ⟨A.first, A.first + A.ents.length - 1, c.segs base chunks,
          oc.map (c.segOf (base + total chunks) true)⟩

theorem rep_at {c : Codec K} {m : Mem} {d : Disk} {A : Arr K} (h : Rep c m d A) :
    ∃ base chunks oc, At c m d A base chunks oc := by
  obtain ⟨base, chunks, oc, h1, h2, h3, h4, h5, h6⟩ := h
  exact ⟨base, chunks, oc, h1, h2, h3, h4, h5, h6⟩

theorem At.rep {c : Codec K} {m : Mem} {d : Disk} {A : Arr K} {base chunks oc} (h : At c m d A base chunks oc) :
    Rep c m d A := ⟨base, chunks, oc, h.good, h.disk, h.le, h.live, h.ents, h.mem⟩

theorem At.last {c : Codec K} {m : Mem} {d : Disk} {A : Arr K} {base chunks oc} (h : At c m d A base chunks oc) :
    A.first + A.ents.length = base + total chunks + (oc.getD []).length := by
  have h1 := live_len _ _ _ _ h.live
  have h2 := allOf_length chunks oc
  have h3 : A.ents.length = (allOf chunks oc).length - (A.first - base) := by rw [h.ents]; simp
  have := h.le
  omega

/-- What one entry does: where it goes, and the calls before the write. -/
theorem append_shape (c : Codec K) (maxSeg : Nat) (m : Mem) (d : Disk) (A : Arr K) (base : Nat)
    (chunks : List (List (Entry K))) (oc : Option (List (Entry K))) (h : At c m d A base chunks oc)
    (e : Entry K) (hf : e.Fits c) :
    ∃ o' chunks' es', c.append (openSegment maxSeg m).1 (m.last + 1) e = some (o', c.encode e) ∧
      o'.first = base + total chunks' ∧ Good c base chunks' (some es') ∧
      allOf chunks' (some es') = allOf chunks oc ∧
      ((oc = none ∧ chunks' = chunks ∧ es' = [] ∧
          (openSegment maxSeg m).2.2 = [Act.create (base + total chunks)]) ∨
       (∃ es, oc = some es ∧ es ≠ [] ∧ chunks' = chunks ++ [es] ∧ es' = [] ∧
          (openSegment maxSeg m).2.2 = [Act.close (base + total chunks) (base + total chunks + es.length - 1),
             Act.create (base + total (chunks ++ [es]))]) ∨
       (oc = some es' ∧ chunks' = chunks ∧ (openSegment maxSeg m).2.2 = [])) ∧
      At c { m with segs := (openSegment maxSeg m).2.1, opn := some o', last := m.last + 1 }
        (c.mkDisk A.first base chunks' (some (es' ++ [e])) []) ⟨A.first, A.ents ++ [e]⟩ base chunks'
        (some (es' ++ [e])) := by
  obtain ⟨hg, hd, hb, hlive, hents, hm⟩ := h
  have hlen := live_len _ _ _ _ hlive
  have hal := allOf_length chunks oc
  have hel : A.ents.length = (allOf chunks oc).length - (A.first - base) := by rw [hents]; simp
  have hpos := hg.pos
  subst hm
  subst hd
  have final : ∀ (cs : List (List (Entry K))) (es : List (Entry K)), Good c base cs (some es) →
      allOf cs (some es) = allOf chunks oc → Live A.first base cs (some (es ++ [e])) →
      ∃ o', c.append (c.segOf (base + total cs) true es) (A.first + A.ents.length - 1 + 1) e =
          some (o', c.encode e) ∧ o'.first = base + total cs ∧
        At c ⟨A.first, A.first + A.ents.length - 1 + 1, c.segs base cs, some o'⟩
          (c.mkDisk A.first base cs (some (es ++ [e])) []) ⟨A.first, A.ents ++ [e]⟩ base cs (some (es ++ [e])) := by
    intro cs es hg' hall' hlive'
    have hal' := allOf_length cs (some es)
    rw [hall'] at hal'
    simp only [Option.getD_some] at hal'
    have hfits : ∀ x ∈ es, x.Fits c := fun x hx => hg'.fits x (by simp [allOf, hx])
    have hsr := segRep_segOf c (base + total cs) true es (by omega) hfits
    have hlast : (c.segOf (base + total cs) true es).last + 1 = A.first + A.ents.length - 1 + 1 := by
      show base + total cs + es.length - 1 + 1 = _
      omega
    obtain ⟨o', ha, hr, ho, hfirst, hl'⟩ := append_spec c _ es hsr rfl e hf
    rw [hlast] at ha
    have ho' : o' = c.segOf (base + total cs) true (es ++ [e]) := by
      have := hr.eq_segOf
      rw [ho, hfirst] at this
      exact this
    have hg'' : Good c base cs (some (es ++ [e])) := by
      refine ⟨hg'.pos, hg'.ne, ?_⟩
      intro x hx
      simp only [allOf, Option.getD_some, List.mem_append, List.mem_singleton] at hx
      rcases hx with hx | hx | hx
      · exact hg'.fits x (by simp only [allOf, List.mem_append]; exact Or.inl hx)
      · exact hfits x hx
      · subst hx; exact hf
    refine ⟨o', ha, hfirst, hg'', rfl, hb, hlive', ?_, ?_⟩
    · show A.ents ++ [e] = _
      have : allOf cs (some (es ++ [e])) = allOf cs (some es) ++ [e] := by simp [allOf]
      rw [this, hall', List.drop_append_of_le_length (by show A.first - base ≤ _; omega), ← hents]
    · rw [ho']
      simp only [Option.map_some, List.length_append, List.length_singleton]
      congr 1; omega
  cases oc with
  | none =>
    have hos : openSegment maxSeg (⟨A.first, A.first + A.ents.length - 1, c.segs base chunks,
        (none : Option (List (Entry K))).map (c.segOf (base + total chunks) true)⟩ : Mem) =
        (c.segOf (base + total chunks) true [], c.segs base chunks, [Act.create (base + total chunks)]) := by
      have hidx : A.first + A.ents.length - 1 + 1 = base + total chunks := by
        simp at hal; omega
      unfold openSegment
      simp only [Option.map_none, Option.getD_none, Option.isNone_none, if_true, newSeg, hidx]
      rw [if_neg (by omega)]
      congr 1
    rw [hos]
    have hg' : Good c base chunks (some []) := ⟨hg.pos, hg.ne, by
      intro x hx; apply hg.fits; simpa [allOf] using hx⟩
    have hl' : Live A.first base chunks (some ([] ++ [e])) := by
      unfold Live at hlive ⊢
      cases chunks with
      | nil => simp at hlive ⊢; omega
      | cons x xs => simpa using hlive
    obtain ⟨o', ha, hfo, hr⟩ := final chunks [] hg' rfl hl'
    exact ⟨o', chunks, [], ha, hfo, hg', rfl, Or.inl ⟨rfl, rfl, rfl, rfl⟩, hr⟩
  | some es =>
    by_cases hroll : (c.encodeAll es).length > maxSeg
    · have hes : es ≠ [] := by
        intro hh; subst hh; simp [Codec.encodeAll] at hroll
      have hesl : 0 < es.length := List.length_pos_iff.mpr hes
      have hidx : A.first + A.ents.length - 1 + 1 = base + total chunks + es.length := by
        simp at hal; omega
      have hne' : ∀ y ∈ chunks ++ [es], y ≠ [] := by
        intro y hy
        rcases List.mem_append.mp hy with hy | hy
        · exact hg.ne y hy
        · simp at hy; subst hy; exact hes
      have hos : openSegment maxSeg (⟨A.first, A.first + A.ents.length - 1, c.segs base chunks,
          (some es : Option (List (Entry K))).map (c.segOf (base + total chunks) true)⟩ : Mem) =
          (c.segOf (base + total (chunks ++ [es])) true [], c.segs base (chunks ++ [es]),
            [Act.close (base + total chunks) (base + total chunks + es.length - 1),
             Act.create (base + total (chunks ++ [es]))]) := by
        unfold openSegment
        simp only [Option.map_some, Option.getD_some, Option.isNone_some, newSeg, hidx]
        rw [if_pos (show (c.segOf (base + total chunks) true es).bytes > maxSeg from hroll)]
        have ht : base + total (chunks ++ [es]) = base + total chunks + es.length := by
          rw [total_append, total_one, Nat.add_assoc]
        rw [ht, segs_append, insertS_end]
        · rfl
        · intro y hy
          exact (segs_mem c base chunks hg.ne y hy).2
      rw [hos]
      have hg' : Good c base (chunks ++ [es]) (some []) := ⟨hg.pos, hne', by
        intro x hx; apply hg.fits; simpa [allOf] using hx⟩
      have hall' : allOf (chunks ++ [es]) (some []) = allOf chunks (some es) := by simp [allOf]
      have hl' : Live A.first base (chunks ++ [es]) (some ([] ++ [e])) := by
        unfold Live at hlive ⊢
        cases chunks with
        | nil => simpa using hlive
        | cons x xs => simpa using hlive
      obtain ⟨o', ha, hfo, hr⟩ := final (chunks ++ [es]) [] hg' hall' hl'
      exact ⟨o', chunks ++ [es], [], ha, hfo, hg', hall', Or.inr (Or.inl ⟨es, rfl, hes, rfl, rfl, rfl⟩), hr⟩
    · have hos : openSegment maxSeg (⟨A.first, A.first + A.ents.length - 1, c.segs base chunks,
          (some es : Option (List (Entry K))).map (c.segOf (base + total chunks) true)⟩ : Mem) =
          (c.segOf (base + total chunks) true es, c.segs base chunks, []) := by
        unfold openSegment
        simp only [Option.map_some, Option.getD_some, Option.isNone_some]
        rw [if_neg (show ¬ (c.segOf (base + total chunks) true es).bytes > maxSeg from hroll)]
        simp
      rw [hos]
      have hl' : Live A.first base chunks (some (es ++ [e])) := by
        unfold Live at hlive ⊢
        cases chunks with
        | nil => simp at hlive ⊢; omega
        | cons x xs => simpa using hlive
      obtain ⟨o', ha, hfo, hr⟩ := final chunks es hg rfl hl'
      exact ⟨o', chunks, es, ha, hfo, hg, rfl, Or.inr (Or.inr ⟨rfl, rfl, rfl⟩), hr⟩

theorem encodeAll_take_mono (c : Codec K) (es : List (Entry K)) (a b : Nat) (h : a ≤ b) :
    (c.encodeAll (es.take a)).length ≤ (c.encodeAll (es.take b)).length := by
  have : es.take b = es.take a ++ (es.take b).drop a := by
    conv => lhs; rw [← List.take_append_drop a (es.take b)]
    rw [List.take_take, Nat.min_eq_left h]
  rw [this, encodeAll_append, List.length_append]
  omega

/-- The part of `At` about the directory. -/
structure Lay (c : Codec K) (d : Disk) (A : Arr K) (base : Nat) (chunks : List (List (Entry K)))
    (oc : Option (List (Entry K))) : Prop where
  good : Good c base chunks oc
  disk : d = c.mkDisk A.first base chunks oc []
  le : base ≤ A.first
  len : A.first ≤ base + (allOf chunks oc).length
  ents : A.ents = (allOf chunks oc).drop (A.first - base)

theorem At.lay {c : Codec K} {m : Mem} {d : Disk} {A : Arr K} {base chunks oc} (h : At c m d A base chunks oc) :
    Lay c d A base chunks oc := ⟨h.good, h.disk, h.le, live_len _ _ _ _ h.live, h.ents⟩

theorem Lay.last {c : Codec K} {d : Disk} {A : Arr K} {base chunks oc} (h : Lay c d A base chunks oc) :
    A.first + A.ents.length = base + total chunks + (oc.getD []).length := by
  have h1 := h.len
  have h2 := allOf_length chunks oc
  have h3 : A.ents.length = (allOf chunks oc).length - (A.first - base) := by rw [h.ents]; simp
  have := h.le
  omega

/-- Some bytes of the open segment are lost, but none of the entries before index `T`. -/
def Owed (c : Codec K) (T base : Nat) (chunks : List (List (Entry K))) (oc : Option (List (Entry K)))
    (syn : Nat → Nat) : Prop :=
  ∀ es, oc = some es → ∃ k, k ≤ es.length ∧ (c.encodeAll (es.take k)).length ≤ syn (base + total chunks) ∧
    T ≤ base + total chunks + k

/-- What is left of a log whose closed segments and entries before `T` are durable. -/
theorem cut_rep (c : Codec K) (s : Snap) (A : Arr K) (xs : List (Entry K)) (base : Nat)
    (chunks : List (List (Entry K))) (oc : Option (List (Entry K)))
    (h : Lay c s.d ⟨A.first, A.ents ++ xs⟩ base chunks oc) (hcc : s.ClosedClean)
    (ho : Owed c (A.first + A.ents.length) base chunks oc s.syn) (d' : Disk) (hl : s.Lost d') :
    ∃ j, j ≤ xs.length ∧ DiskRep c d' ⟨A.first, A.ents ++ xs.take j⟩ := by
  obtain ⟨cut, hcut, hd⟩ := hl
  have hlast := h.last
  obtain ⟨hg, hdk, hb, hlen, hents⟩ := h
  dsimp only at hb hlen hents hdk hlast
  have hcl : s.d.closed.map (fun x => { x with data := x.data.take (cut x.first) }) = s.d.closed := by
    apply map_id_of
    intro x hx
    have h1 := hcc x hx
    have h2 := hcut x.first
    rw [List.take_of_length_le (by omega)]
  cases oc with
  | none =>
    refine ⟨xs.length, Nat.le_refl _, base, chunks, none, [], hg, torn_nil c, ?_, hb, ?_⟩
    · rw [hd, ← hdk]
      unfold Disk.cutAll
      rw [hcl, hdk]; rfl
    · rw [List.take_length]; exact hents
  | some es =>
    obtain ⟨k, hk, hks, hkT⟩ := ho es rfl
    have hfits : ∀ x ∈ es, x.Fits c := fun x hx => hg.fits x (by simp [allOf, hx])
    obtain ⟨k', tail, h1, h2, h3, h4, h5⟩ := prefix_records c es hfits (cut (base + total chunks))
    have hkk : k ≤ k' := by
      apply Nat.le_of_not_lt
      intro hlt
      have := h5 (by omega)
      have h6 := encodeAll_take_mono c es (k' + 1) k (by omega)
      have h7 := hcut (base + total chunks)
      omega
    have hg' : Good c base chunks (some (es.take k')) := by
      refine ⟨hg.pos, hg.ne, ?_⟩
      intro x hx
      simp only [allOf, Option.getD_some, List.mem_append] at hx
      rcases hx with hx | hx
      · exact hg.fits x (by simp only [allOf, List.mem_append]; exact Or.inl hx)
      · exact hfits x (List.mem_of_mem_take hx)
    have hal := allOf_length chunks (some es)
    simp only [Option.getD_some] at hal hlast
    have hdrop : (allOf chunks (some (es.take k'))).drop (A.first - base) =
        (A.ents ++ xs).take (total chunks + k' - (A.first - base)) := by
      rw [hents]
      have : allOf chunks (some (es.take k')) = (allOf chunks (some es)).take (total chunks + k') := by
        simp only [allOf, Option.getD_some]
        have h0 : chunks.flatten.take (total chunks + k') = chunks.flatten :=
          List.take_of_length_le (by show chunks.flatten.length ≤ _; unfold total; omega)
        rw [List.take_append, h0]
        congr 2
        unfold total; omega
      rw [this, List.drop_take]
    refine ⟨min (total chunks + k' - (A.first - base) - A.ents.length) xs.length, Nat.min_le_right _ _,
      base, chunks, some (es.take k'), tail, hg', h2, ?_, hb, ?_⟩
    · rw [hd]
      unfold Disk.cutAll
      rw [hcl, hdk]
      simp only [Codec.mkDisk, List.map_cons, List.map_nil, List.append_nil]
      rw [h1]
    · dsimp only
      have h0 : A.ents.take (total chunks + k' - (A.first - base)) = A.ents :=
        List.take_of_length_le (by omega)
      rw [hdrop, List.take_append, h0]
      congr 1
      by_cases hle : total chunks + k' - (A.first - base) - A.ents.length ≤ xs.length
      · rw [Nat.min_eq_left hle]
      · rw [Nat.min_eq_right (by omega), List.take_length]
        exact (List.take_of_length_le (by omega)).symm

/-- During append_entries: the log is `A` and the entries `xs`, of which any suffix may be lost. -/
structure Loop (c : Codec K) (p : PDisk) (A : Arr K) (xs : List (Entry K)) (base : Nat)
    (chunks : List (List (Entry K))) (oc : Option (List (Entry K))) : Prop where
  lay : Lay c p.now.d ⟨A.first, A.ents ++ xs⟩ base chunks oc
  cc : p.now.ClosedClean
  owed : Owed c (A.first + A.ents.length) base chunks oc p.now.syn

theorem loop_fsync {c : Codec K} {p : PDisk} {A : Arr K} {xs base chunks oc} (f : Nat)
    (h : Loop c p A xs base chunks oc) : Loop c (p.step (.fsync f)) A xs base chunks oc := by
  refine ⟨h.lay, closedClean_fsync _ _ h.cc, ?_⟩
  intro es he
  obtain ⟨k, h1, h2, h3⟩ := h.owed es he
  refine ⟨k, h1, ?_, h3⟩
  show _ ≤ upd p.now.syn f (p.now.d.lenOf f) (base + total chunks)
  by_cases hf : base + total chunks = f
  · rw [hf, upd_self, ← hf]
    have hd := h.lay.disk
    rw [he] at hd
    have hm : (base + total chunks, c.encodeAll es) ∈ p.now.d.opens := by
      rw [hd]; simp [Codec.mkDisk]
    have := lenOf_open p.now.d _ hm
    have h4 := encodeAll_take_mono c es k es.length h1
    rw [List.take_length] at h4
    dsimp only at this
    omega
  · rw [upd_ne _ _ _ _ hf]; exact h2

theorem loop_create {c : Codec K} {p : PDisk} {A : Arr K} {xs base chunks}
    (h : Loop c p A xs base chunks none) :
    Loop c (p.step (.call (.create (base + total chunks)))) A xs base chunks (some []) := by
  have hl := h.lay.last
  simp only [Option.getD_none, List.length_nil, List.length_append] at hl
  obtain ⟨hg, hd, hb, hlen, hents⟩ := h.lay
  have hd' : (p.step (.call (.create (base + total chunks)))).now.d =
      c.mkDisk A.first base chunks (some []) [] := by
    show Act.apply p.now.d (.create (base + total chunks)) = _
    rw [hd, mk_create]
  refine ⟨⟨⟨hg.pos, hg.ne, fun x hx => hg.fits x (by simpa [allOf] using hx)⟩, hd', hb, by simpa [allOf] using hlen,
    by simpa [allOf] using hents⟩, ?_, ?_⟩
  · intro x hx
    have hx' : x ∈ p.now.d.closed := hx
    have hlt := hx'
    rw [hd] at hlt
    have := (files_mem c base chunks hg.ne x hlt).2
    show _ ≤ upd p.now.syn (base + total chunks) 0 x.first
    rw [upd_ne _ _ _ _ (by omega)]
    exact h.cc x hx'
  · intro es he
    have he' : es = [] := by simpa using he.symm
    subst he'
    refine ⟨0, Nat.le_refl _, by simp [Codec.encodeAll], ?_⟩
    omega

theorem loop_close {c : Codec K} {p : PDisk} {A : Arr K} {xs base chunks es}
    (h : Loop c p A xs base chunks (some es)) (hne : es ≠ [])
    (hs : ∀ x ∈ p.now.d.opens, x.1 = base + total chunks → x.2.length ≤ p.now.syn (base + total chunks)) :
    Loop c (p.step (.call (.close (base + total chunks) (base + total chunks + es.length - 1)))) A xs base
      (chunks ++ [es]) none := by
  obtain ⟨hg, hd, hb, hlen, hents⟩ := h.lay
  have hd' : (p.step (.call (.close (base + total chunks) (base + total chunks + es.length - 1)))).now.d =
      c.mkDisk A.first base (chunks ++ [es]) none [] := by
    show Act.apply p.now.d (.close (base + total chunks) (base + total chunks + es.length - 1)) = _
    rw [hd, mk_close c A.first base chunks es hg.ne _ rfl]
  have hall : allOf (chunks ++ [es]) none = allOf chunks (some es) := by simp [allOf]
  refine ⟨⟨⟨hg.pos, ?_, ?_⟩, hd', hb, by rw [hall]; exact hlen, by rw [hall]; exact hents⟩, ?_, ?_⟩
  · intro y hy
    rcases List.mem_append.mp hy with hy | hy
    · exact hg.ne y hy
    · simp at hy; subst hy; exact hne
  · intro x hx
    rw [hall] at hx
    exact hg.fits x hx
  · intro x hx
    rw [hd'] at hx
    have hx' : x ∈ c.files base (chunks ++ [es]) := hx
    rw [files_append, List.mem_append] at hx'
    show _ ≤ p.now.syn x.first
    rcases hx' with hx' | hx'
    · exact h.cc x (by rw [hd]; exact hx')
    · simp only [Codec.files, List.mem_singleton] at hx'
      rw [hx']
      dsimp only
      exact hs (base + total chunks, c.encodeAll es) (by rw [hd]; simp [Codec.mkDisk]) rfl
  · intro es' he; cases he

theorem loop_write {c : Codec K} {p : PDisk} {A : Arr K} {xs base chunks es} {e : Entry K} (hf : e.Fits c)
    (h : Loop c p A xs base chunks (some es)) :
    Loop c (p.step (.call (.write (base + total chunks) (c.encode e)))) A (xs ++ [e]) base chunks
      (some (es ++ [e])) := by
  obtain ⟨hg, hd, hb, hlen, hents⟩ := h.lay
  have hd' : (p.step (.call (.write (base + total chunks) (c.encode e)))).now.d =
      c.mkDisk A.first base chunks (some (es ++ [e])) [] := by
    show Act.apply p.now.d (.write (base + total chunks) (c.encode e)) = _
    rw [hd, mk_write, mk_write_entry]
  have hall : allOf chunks (some (es ++ [e])) = allOf chunks (some es) ++ [e] := by simp [allOf]
  dsimp only at hlen hb
  refine ⟨⟨⟨hg.pos, hg.ne, ?_⟩, hd', hb, ?_, ?_⟩, h.cc, ?_⟩
  · intro x hx
    rw [hall, List.mem_append, List.mem_singleton] at hx
    rcases hx with hx | hx
    · exact hg.fits x hx
    · subst hx; exact hf
  · rw [hall, List.length_append]
    dsimp only
    omega
  · dsimp only at hents ⊢
    rw [hall, List.drop_append_of_le_length (by omega), ← hents, List.append_assoc]
  · intro es' he
    have he' : es' = es ++ [e] := by simpa using he.symm
    subst he'
    obtain ⟨k, h1, h2, h3⟩ := h.owed es rfl
    refine ⟨k, by rw [List.length_append]; omega, ?_, h3⟩
    rw [List.take_append_of_le_length h1]
    exact h2

/-- The states of the loop lose at most a suffix of `xs`. -/
theorem loop_lost {c : Codec K} {p : PDisk} {A : Arr K} {xs base chunks oc} (h : Loop c p A xs base chunks oc)
    {Q : Disk → Prop} (hQ : ∀ j d', j ≤ xs.length → DiskRep c d' ⟨A.first, A.ents ++ xs.take j⟩ → Q d')
    (d' : Disk) (hl : p.now.Lost d') : Q d' := by
  obtain ⟨j, hj, hd⟩ := cut_rep c p.now A xs base chunks oc h.lay h.cc h.owed d' hl
  exact hQ j d' hj hd

theorem closesSynced_append (p : PDisk) (a b : List PAct) (h : ClosesSynced p (a ++ b)) :
    ClosesSynced p a ∧ ClosesSynced (p.run a) b := by
  induction a generalizing p with
  | nil => exact ⟨trivial, h⟩
  | cons x xs ih =>
    obtain ⟨h1, h2⟩ := h
    obtain ⟨h3, h4⟩ := ih _ h2
    exact ⟨⟨h1, h3⟩, h4⟩

/-- One entry. -/
theorem entry_always (c : Codec K) (fl : SyncFlags) (maxSeg : Nat) (m : Mem) (p : PDisk) (A : Arr K)
    (xs : List (Entry K)) (e : Entry K) (hf : e.Fits c) (base chunks oc)
    (hat : At c m p.now.d ⟨A.first, A.ents ++ xs⟩ base chunks oc) (hlp : Loop c p A xs base chunks oc)
    (Q : Disk → Prop)
    (hQ : ∀ j d', j ≤ (xs ++ [e]).length → DiskRep c d' ⟨A.first, A.ents ++ (xs ++ [e]).take j⟩ → Q d')
    (hq : AllLost Q p) (o' : Seg)
    (ha : c.append (openSegment maxSeg m).1 (m.last + 1) e = some (o', c.encode e))
    (hcs : ClosesSynced p (fl.allActs ((openSegment maxSeg m).2.2 ++ [.write o'.first (c.encode e)]))) :
    Always Q p (fl.allActs ((openSegment maxSeg m).2.2 ++ [.write o'.first (c.encode e)])) ∧
    ∃ chunks' oc', At c { m with segs := (openSegment maxSeg m).2.1, opn := some o', last := m.last + 1 }
        (p.run (fl.allActs ((openSegment maxSeg m).2.2 ++ [.write o'.first (c.encode e)]))).now.d
        ⟨A.first, A.ents ++ (xs ++ [e])⟩ base chunks' oc' ∧
      Loop c (p.run (fl.allActs ((openSegment maxSeg m).2.2 ++ [.write o'.first (c.encode e)]))) A (xs ++ [e]) base
        chunks' oc' := by
  obtain ⟨o1, chunks', es', h1, h2, h3, h4, h5, h6⟩ := append_shape c maxSeg m _ _ base chunks oc hat e hf
  rw [ha] at h1
  simp only [Option.some.injEq, Prod.mk.injEq, and_true] at h1
  subst h1
  dsimp only at h6
  rw [List.append_assoc] at h6
  -- the properties of `Q` for the entries so far
  have hQ' : ∀ j d', j ≤ xs.length → DiskRep c d' ⟨A.first, A.ents ++ xs.take j⟩ → Q d' := by
    intro j d' hj hd
    refine hQ j d' (by rw [List.length_append]; omega) ?_
    rw [List.take_append_of_le_length hj]; exact hd
  -- the write
  have hwrite : ∀ q : PDisk, Loop c q A xs base chunks' (some es') → AllLost Q q →
      Always Q q [.call (.write o'.first (c.encode e))] ∧
      At c { m with segs := (openSegment maxSeg m).2.1, opn := some o', last := m.last + 1 }
        (q.run [.call (.write o'.first (c.encode e))]).now.d ⟨A.first, A.ents ++ (xs ++ [e])⟩ base chunks' (some (es' ++ [e])) ∧
      Loop c (q.run [.call (.write o'.first (c.encode e))]) A (xs ++ [e]) base chunks' (some (es' ++ [e])) := by
    intro q hl hql
    rw [h2]
    have hl' := loop_write hf hl
    refine ⟨always_cons hql (always_nil (allLost_call hql (loop_lost hl' hQ))), ?_, hl'⟩
    have hdk := hl'.lay.disk
    show At c _ (q.step (.call (.write (base + total chunks') (c.encode e)))).now.d _ _ _ _
    rw [hdk]
    exact h6
  rw [allActs_append] at hcs ⊢
  rw [run_append]
  have hwa : fl.allActs [.write o'.first (c.encode e)] = [.call (.write o'.first (c.encode e))] := rfl
  rw [hwa] at *
  rcases h5 with ⟨he1, he2, he3, he4⟩ | ⟨es, he1, he2, he3, he4, he5⟩ | ⟨he1, he2, he3⟩
  · subst he1; subst he2; subst he3
    rw [he4]
    have hca : fl.allActs [.create (base + total chunks')] = [.call (.create (base + total chunks'))] := rfl
    rw [hca]
    have hl1 := loop_create hlp
    have hq1 : AllLost Q (p.step (.call (.create (base + total chunks')))) :=
      allLost_call hq (loop_lost hl1 hQ')
    obtain ⟨w1, w2, w3⟩ := hwrite _ hl1 hq1
    exact ⟨always_append (always_cons hq (always_nil hq1)) w1, chunks', _, w2, w3⟩
  · subst he1; subst he3; subst he4
    rw [he5] at hcs ⊢
    have hca : fl.allActs [.close (base + total chunks) (base + total chunks + es.length - 1),
        .create (base + total (chunks ++ [es]))] =
        fl.acts (.close (base + total chunks) (base + total chunks + es.length - 1)) ++
          [.call (.create (base + total (chunks ++ [es])))] := by
      simp [SyncFlags.allActs, SyncFlags.acts]
    rw [hca] at hcs ⊢
    -- from the state in which the segment is renamed
    have hroll : ∀ q : PDisk, Loop c q A xs base chunks (some es) → AllLost Q q →
        (∀ x ∈ q.now.d.opens, x.1 = base + total chunks → x.2.length ≤ q.now.syn (base + total chunks)) →
        Always Q q [.call (.close (base + total chunks) (base + total chunks + es.length - 1)),
          .call (.create (base + total (chunks ++ [es])))] ∧
        Loop c (q.run [.call (.close (base + total chunks) (base + total chunks + es.length - 1)),
          .call (.create (base + total (chunks ++ [es])))]) A xs base (chunks ++ [es]) (some []) := by
      intro q hl hql hs
      have hl1 := loop_close hl he2 hs
      have hq1 := allLost_call hql (loop_lost hl1 hQ')
      have hl2 := loop_create hl1
      have hq2 := allLost_call hq1 (loop_lost hl2 hQ')
      exact ⟨always_cons hql (always_cons hq1 (always_nil hq2)), hl2⟩
    by_cases hsy : base + total chunks < base + total chunks + es.length - 1 ∧ fl.syncSegs = true ∧ fl.enable = true
    · have hfa : fl.acts (.close (base + total chunks) (base + total chunks + es.length - 1)) =
          [.fsync (base + total chunks), .call (.close (base + total chunks) (base + total chunks + es.length - 1))] := by
        simp only [SyncFlags.acts, if_pos hsy]; rfl
      rw [hfa] at hcs ⊢
      have hl1 := loop_fsync (base + total chunks) hlp
      have hq1 := allLost_fsync (Q := Q) (base + total chunks) hq
      obtain ⟨r1, r2⟩ := hroll _ hl1 hq1 (by
        intro x hx hxe
        show _ ≤ upd p.now.syn (base + total chunks) (p.now.d.lenOf (base + total chunks)) (base + total chunks)
        rw [upd_self, ← hxe]
        exact lenOf_open p.now.d x hx)
      obtain ⟨w1, w2, w3⟩ := hwrite _ r2 r1.done
      exact ⟨always_append (always_cons hq r1) w1, chunks ++ [es], _, w2, w3⟩
    · have hfa : fl.acts (.close (base + total chunks) (base + total chunks + es.length - 1)) =
          [.call (.close (base + total chunks) (base + total chunks + es.length - 1))] := by
        simp only [SyncFlags.acts, if_neg hsy]; rfl
      rw [hfa] at hcs ⊢
      obtain ⟨r1, r2⟩ := hroll p hlp hq hcs.1
      obtain ⟨w1, w2, w3⟩ := hwrite _ r2 r1.done
      exact ⟨always_append r1 w1, chunks ++ [es], _, w2, w3⟩
  · subst he1; subst he2
    rw [he3]
    obtain ⟨w1, w2, w3⟩ := hwrite p hlp hq
    exact ⟨w1, chunks', _, w2, w3⟩

/-- All entries of a call. -/
theorem appendLoop_always (c : Codec K) (fl : SyncFlags) (maxSeg : Nat) (A : Arr K) (Q : Disk → Prop)
    (es : List (Entry K)) (xs : List (Entry K)) (m : Mem) (p : PDisk) (hf : ∀ e ∈ es, e.Fits c) (base chunks oc)
    (hat : At c m p.now.d ⟨A.first, A.ents ++ xs⟩ base chunks oc) (hlp : Loop c p A xs base chunks oc)
    (hQ : ∀ j d', j ≤ (xs ++ es).length → DiskRep c d' ⟨A.first, A.ents ++ (xs ++ es).take j⟩ → Q d')
    (hq : AllLost Q p) (hcs : ClosesSynced p (fl.allActs (c.appendLoop maxSeg m es).2.1)) :
    Always Q p (fl.allActs (c.appendLoop maxSeg m es).2.1) ∧
    ∃ chunks' oc', At c (c.appendLoop maxSeg m es).1 (p.run (fl.allActs (c.appendLoop maxSeg m es).2.1)).now.d
        ⟨A.first, A.ents ++ (xs ++ es)⟩ base chunks' oc' ∧
      Loop c (p.run (fl.allActs (c.appendLoop maxSeg m es).2.1)) A (xs ++ es) base chunks' oc' ∧
      (es ≠ [] → oc' ≠ none) := by
  induction es generalizing xs m p chunks oc with
  | nil =>
    refine ⟨always_nil hq, chunks, oc, ?_, ?_, fun h => absurd rfl h⟩
    · simpa [Codec.appendLoop, SyncFlags.allActs, PDisk.run] using hat
    · simpa [Codec.appendLoop, SyncFlags.allActs, PDisk.run] using hlp
  | cons e es ih =>
    have hfe := hf e (List.mem_cons_self ..)
    obtain ⟨o', _, _, ha, _⟩ := append_shape c maxSeg m _ _ base chunks oc hat e hfe
    have hstep : c.appendLoop maxSeg m (e :: es) =
        ((c.appendLoop maxSeg { m with segs := (openSegment maxSeg m).2.1, opn := some o', last := m.last + 1 } es).1,
         ((openSegment maxSeg m).2.2 ++ [.write o'.first (c.encode e)]) ++
          (c.appendLoop maxSeg { m with segs := (openSegment maxSeg m).2.1, opn := some o', last := m.last + 1 } es).2.1,
         (c.appendLoop maxSeg { m with segs := (openSegment maxSeg m).2.1, opn := some o', last := m.last + 1 } es).2.2 + 1) := by
      rw [Codec.appendLoop]
      simp only [ha]
      simp
    rw [hstep] at hcs ⊢
    dsimp only at hcs ⊢
    rw [allActs_append] at hcs ⊢
    obtain ⟨hc1, hc2⟩ := closesSynced_append _ _ _ hcs
    have happ : xs ++ e :: es = (xs ++ [e]) ++ es := by simp
    obtain ⟨e1, chunks', oc', e2, e3⟩ := entry_always c fl maxSeg m p A xs e hfe base chunks oc hat hlp Q (by
      intro j d' hj hd
      refine hQ j d' (by rw [happ, List.length_append]; omega) ?_
      rw [happ, List.take_append_of_le_length hj]; exact hd) hq o' ha hc1
    obtain ⟨i1, chunks2, oc2, i2, i3, i4⟩ := ih (xs ++ [e]) _ _ (fun x hx => hf x (List.mem_cons_of_mem _ hx)) chunks' oc'
      e2 e3 (by rw [← happ]; exact hQ) e1.done hc2
    rw [run_append, happ]
    refine ⟨always_append e1 i1, chunks2, oc2, i2, i3, ?_⟩
    intro _ hn
    have := i2.mem
    cases es with
    | nil =>
      rw [hn] at this
      simp [Codec.appendLoop] at this
    | cons x xs => exact i4 (by simp) hn

end Braft.Store
