import Verif.Store.Record
/-
One segment file: log.cpp:234-257 (`_get_meta`), 259-377 (`load`), 379-447 (`append`),
449-515 (`get`, `get_term`), 625-680 (`truncate`). The file's bytes are kept apart from the
in-memory `Seg`, because they outlive it.
-/
set_option linter.unusedVariables false
set_option linter.unusedSimpArgs false
set_option linter.unusedSectionVars false

namespace Braft.Store
variable {K : Type}

/-- log.h:95-115, members of `Segment` (`_unsynced_bytes`, `_fd` and the mutex left out). -/
structure Seg where
  first : Nat
  last : Nat
  isOpen : Bool
  offs : List (Nat × Nat)
  bytes : Nat
deriving DecidableEq, Repr

/-- How the loop of `load` ended: at the end or at an incomplete record (`ret == 0`), at a header
that does not verify (`is_entry_corrupted`), or at a configuration that does not parse. -/
inductive ScanSt | done | corrupted | badConf
deriving DecidableEq, Repr

/-- Result of the loop: `_offset_and_term`, configurations handed to the ConfigurationManager as
(index, term, configuration), and the final `entry_off`. -/
structure Scan (K : Type) where
  offs : List (Nat × Nat)
  confs : List (Nat × Nat × K)
  off : Nat
  st : ScanSt
deriving DecidableEq, Repr

/-- log.cpp:288-333, the loop of `load`. Each round advances by at least 24 bytes, so
`fuel = file.length` suffices. -/
def Codec.scan (c : Codec K) (file : Bytes) : (fuel off idx : Nat) → Scan K
  | 0, off, _ => ⟨[], [], off, .done⟩
  | fuel + 1, off, idx =>
    if off < file.length then
      match c.loadEntry file off false 24 with
      | .short => ⟨[], [], off, .done⟩
      | .corrupt => ⟨[], [], off, .corrupted⟩
      | .ok h _ =>
        let skip := 24 + h.dataLen
        if off + skip > file.length then ⟨[], [], off, .done⟩
        else if h.type = tyConf then
          match c.loadEntry file off true skip with
          | .ok _ d =>
            match c.parse d with
            | some k =>
              let r := c.scan file fuel (off + skip) (idx + 1)
              ⟨(off, h.term) :: r.offs, (idx, h.term, k) :: r.confs, r.off, r.st⟩
            | none => ⟨[], [], off, .badConf⟩
          | _ => ⟨[], [], off, .done⟩
        else
          let r := c.scan file fuel (off + skip) (idx + 1)
          ⟨(off, h.term) :: r.offs, r.confs, r.off, r.st⟩
    else ⟨[], [], off, .done⟩

/-- log.cpp:259-377 `Segment::load`. `seg` is a new object (its `offs` empty); `recover` is
FLAGS_raft_recover_log_from_corrupt. Result: the loaded segment, the configurations found, and the
size the file is truncated to; `none` is a non-zero return. -/
def Codec.load (c : Codec K) (recover : Bool) (seg : Seg) (file : Bytes) :
    Option (Seg × List (Nat × Nat × K) × Nat) :=
  let r := c.scan file file.length 0 seg.first
  let actual := seg.first + r.offs.length - 1
  let ret1 : Bool := decide (r.st = .done)
  let ret2 : Bool := ret1 && (seg.isOpen || decide (actual = seg.last))
  if !ret2 && (!seg.isOpen || !recover || decide (r.st ≠ .corrupted)) then none
  else some ({ seg with last := if seg.isOpen then actual else seg.last, offs := r.offs, bytes := r.off },
             r.confs, r.off)

/-- log.cpp:379-447 `Segment::append` of the entry with index `idx`: the bytes appended to the file
and the new segment; `none` is EINVAL or ERANGE. -/
def Codec.append (c : Codec K) (seg : Seg) (idx : Nat) (e : Entry K) : Option (Seg × Bytes) :=
  if !seg.isOpen then none
  else if idx ≠ seg.last + 1 then none
  else some ({ seg with offs := seg.offs ++ [(seg.bytes, e.term)], last := seg.last + 1,
                        bytes := seg.bytes + (c.encode e).length }, c.encode e)

/-- log.cpp:234-257 `_get_meta`: offset, term, length. -/
def Seg.getMeta (seg : Seg) (idx : Nat) : Option (Nat × Nat × Nat) :=
  if idx > seg.last ∨ idx < seg.first then none
  else
    match seg.offs[idx - seg.first]? with
    | none => none
    | some (off, term) =>
      let next := if idx < seg.last then ((seg.offs[idx - seg.first + 1]?).map Prod.fst).getD 0 else seg.bytes
      some (off, term, next - off)

/-- log.cpp:469-526 `Segment::get`. -/
def Codec.get (c : Codec K) (seg : Seg) (file : Bytes) (idx : Nat) : Option (Entry K) :=
  match seg.getMeta idx with
  | none => none
  | some (off, _, len) =>
    match c.loadEntry file off true len with
    | .ok h d => c.toEntry h d
    | _ => none

/-- log.cpp:528-534 `Segment::get_term`. -/
def Seg.getTerm (seg : Seg) (idx : Nat) : Nat :=
  match seg.getMeta idx with
  | none => 0
  | some (_, t, _) => t

/-- log.cpp:625-680 `Segment::truncate`: the new segment and the size the file is cut to (`none`:
nothing to do). The rename of a full segment is done by the caller of this function in the model
(log.cpp:642-663 happens between the two). -/
def Seg.truncate (seg : Seg) (kept : Nat) : Option (Seg × Nat) :=
  if kept ≥ seg.last then none
  else
    let n := kept + 1 - seg.first
    let size := ((seg.offs[n]?).map Prod.fst).getD 0
    some ({ seg with isOpen := true, offs := seg.offs.take n, last := kept, bytes := size }, size)

/-! ### Specification: what a segment with entries `es` looks like -/

/-- The file holding `es`. -/
def Codec.encodeAll (c : Codec K) (es : List (Entry K)) : Bytes := (es.map c.encode).flatten

/-- Offsets and terms of `es` from `start`. -/
def Codec.offsets (c : Codec K) : Nat → List (Entry K) → List (Nat × Nat)
  | _, [] => []
  | s, e :: es => (s, e.term) :: c.offsets (s + (c.encode e).length) es

/-- The configuration entries of `es`, numbered from `idx`. -/
def confsOf : Nat → List (Entry K) → List (Nat × Nat × K)
  | _, [] => []
  | i, e :: es => match e.body with
    | .conf k => (i, e.term, k) :: confsOf (i + 1) es
    | _ => confsOf (i + 1) es

/-- `seg` describes exactly the entries `es`. -/
structure SegRep (c : Codec K) (seg : Seg) (es : List (Entry K)) : Prop where
  offs : seg.offs = c.offsets 0 es
  last : seg.last + 1 = seg.first + es.length
  pos : 1 ≤ seg.first
  bytes : seg.bytes = (c.encodeAll es).length
  fits : ∀ e ∈ es, e.Fits c

/-- What a crash can leave behind the last complete record: nothing, or an incomplete record. -/
def Torn (c : Codec K) (tail : Bytes) : Prop :=
  tail = [] ∨ ∃ e : Entry K, e.Fits c ∧ tail <+: c.encode e ∧ tail.length < (c.encode e).length

/-! ### Lemmas -/

theorem encodeAll_append (c : Codec K) (a b : List (Entry K)) :
    c.encodeAll (a ++ b) = c.encodeAll a ++ c.encodeAll b := by
  simp [Codec.encodeAll]

theorem encodeAll_cons (c : Codec K) (e : Entry K) (b : List (Entry K)) :
    c.encodeAll (e :: b) = c.encode e ++ c.encodeAll b := by
  simp [Codec.encodeAll]

theorem offsets_length (c : Codec K) (s : Nat) (es : List (Entry K)) :
    (c.offsets s es).length = es.length := by
  induction es generalizing s with
  | nil => rfl
  | cons e es ih => simp [Codec.offsets, ih]

theorem offsets_append (c : Codec K) (s : Nat) (a b : List (Entry K)) :
    c.offsets s (a ++ b) = c.offsets s a ++ c.offsets (s + (c.encodeAll a).length) b := by
  induction a generalizing s with
  | nil => simp [Codec.offsets, Codec.encodeAll]
  | cons e es ih =>
    simp only [List.cons_append, Codec.offsets, ih, encodeAll_cons, List.length_append]
    rw [Nat.add_assoc]

theorem offsets_get (c : Codec K) (s : Nat) (es : List (Entry K)) (i : Nat) (h : i < es.length) :
    (c.offsets s es)[i]? = some (s + (c.encodeAll (es.take i)).length, es[i].term) := by
  induction es generalizing s i with
  | nil => simp at h
  | cons e es ih =>
    cases i with
    | zero => simp [Codec.offsets, Codec.encodeAll]
    | succ i =>
      simp only [Codec.offsets, List.getElem?_cons_succ, List.take_succ_cons, encodeAll_cons,
        List.length_append, List.getElem_cons_succ]
      rw [ih _ i (by simpa using h), Nat.add_assoc]

theorem torn_short (c : Codec K) (tail : Bytes) (e : Entry K) (hf : e.Fits c)
    (hp : tail <+: c.encode e) (hl : tail.length < (c.encode e).length) (pre : Bytes) :
    c.loadEntry (pre ++ tail) pre.length false 24 = .short ∨
    ∃ d, c.loadEntry (pre ++ tail) pre.length false 24 = .ok (c.hdr e) d ∧
      pre.length + (24 + (c.hdr e).dataLen) > (pre ++ tail).length := by
  obtain ⟨rest, hr⟩ := hp
  by_cases h24 : tail.length < 24
  · left
    unfold Codec.loadEntry
    dsimp only
    rw [pread_at]
    have : (tail.take (max 24 24)).length ≠ max 24 24 := by
      rw [List.length_take]; omega
    rw [if_pos this]
  · right
    refine ⟨[], ?_, ?_⟩
    · unfold Codec.loadEntry
      dsimp only
      rw [pread_at]
      have hl24 : (tail.take (max 24 24)).length = max 24 24 := by
        rw [List.length_take]; omega
      have e24 : (tail.take (max 24 24)) = (c.encode e ++ []).take 24 := by
        rw [List.append_nil, ← hr, List.take_append_of_le_length (by omega)]; simp
      simp only [hl24, ne_eq, not_true_eq_false, if_false]
      have t24 : (tail.take (max 24 24)).take 24 = (c.encode e ++ []).take 24 := by
        rw [e24, List.take_take]; simp
      have t20 : (tail.take (max 24 24)).take 20 = c.header20 e := by
        rw [e24, List.take_take]; exact take20_encode c e []
      have ts : ((tail.take (max 24 24)).drop 20).take 4 = ((c.encode e ++ []).drop 20).take 4 := by
        rw [e24, List.drop_take, List.take_take]
        congr 1
      rw [t24, t20, ts, parseHeader_fits c e hf, sum_encode]
      have hv : c.verify (c.hdr e).ckType (c.header20 e) (c.sum c.ckType (c.header20 e)).toNat = true :=
        verify_sum c _
      simp [hv]
    · have : (c.hdr e).dataLen = (c.payload e.body).length := rfl
      rw [this]
      rw [encode_length] at hl
      simp; omega

/-- The loop of `load` on a file with complete records `es` and possibly a torn tail. -/
theorem scan_spec (c : Codec K) (es : List (Entry K)) (hf : ∀ e ∈ es, e.Fits c) (tail : Bytes)
    (ht : Torn c tail) (pre : Bytes) (fuel idx : Nat) (hfuel : es.length < fuel ∨ (es.length = fuel ∧ tail = [])) :
    c.scan (pre ++ (c.encodeAll es ++ tail)) fuel pre.length idx =
      ⟨c.offsets pre.length es, confsOf idx es, pre.length + (c.encodeAll es).length, .done⟩ := by
  induction es generalizing pre fuel idx with
  | nil =>
    have hea : c.encodeAll ([] : List (Entry K)) = [] := rfl
    rw [hea, List.nil_append]
    cases fuel with
    | zero => simp [Codec.scan, Codec.offsets, confsOf]
    | succ fuel =>
      unfold Codec.scan
      by_cases hlt : pre.length < (pre ++ tail).length
      · rw [if_pos hlt]
        rcases ht with ht | ⟨e, he, hp, hl⟩
        · subst ht; simp at hlt
        · rcases torn_short c tail e he hp hl pre with h | ⟨d, h1, h2⟩
          · rw [h]; simp [Codec.offsets, confsOf]
          · rw [h1]; simp only [if_pos h2]; simp [Codec.offsets, confsOf]
      · rw [if_neg hlt]; simp [Codec.offsets, confsOf]
  | cons e es ih =>
    have he : e.Fits c := hf e (List.mem_cons_self ..)
    cases fuel with
    | zero => simp at hfuel
    | succ fuel =>
      unfold Codec.scan
      have hfile : pre ++ (c.encodeAll (e :: es) ++ tail) =
          pre ++ (c.encode e ++ (c.encodeAll es ++ tail)) := by
        rw [encodeAll_cons, List.append_assoc]
      have hlen : (pre ++ (c.encodeAll (e :: es) ++ tail)).length =
          pre.length + (24 + (c.payload e.body).length) + (c.encodeAll es ++ tail).length := by
        rw [hfile, List.length_append, List.length_append, encode_length]; omega
      have hlt : pre.length < (pre ++ (c.encodeAll (e :: es) ++ tail)).length := by omega
      rw [if_pos hlt]
      have hl1 : c.loadEntry (pre ++ (c.encodeAll (e :: es) ++ tail)) pre.length false 24 =
          .ok (c.hdr e) [] := by
        rw [hfile, loadEntry_encode c e he pre _ 24 (by omega) false]; simp
      rw [hl1]
      have hdl : (c.hdr e).dataLen = (c.payload e.body).length := rfl
      have hty : (c.hdr e).type = e.body.ty := rfl
      have htm : (c.hdr e).term = e.term := rfl
      have hngt : ¬ (pre.length + (24 + (c.payload e.body).length) >
          (pre ++ (c.encodeAll (e :: es) ++ tail)).length) := by omega
      simp only [hdl, hty, htm, if_neg hngt]
      have hrec := ih (fun x hx => hf x (List.mem_cons_of_mem _ hx)) (pre ++ c.encode e) fuel (idx + 1)
        (by simp at hfuel; omega)
      have hpl : (pre ++ c.encode e).length = pre.length + (24 + (c.payload e.body).length) := by
        rw [List.length_append, encode_length]
      have hfile2 : pre ++ c.encode e ++ (c.encodeAll es ++ tail) =
          pre ++ (c.encodeAll (e :: es) ++ tail) := by
        rw [hfile, List.append_assoc]
      rw [hpl, hfile2] at hrec
      have hlast : pre.length + (24 + (c.payload e.body).length) + (c.encodeAll es).length =
          pre.length + (c.encodeAll (e :: es)).length := by
        rw [encodeAll_cons, List.length_append, encode_length]; omega
      by_cases hc : e.body.ty = tyConf
      · rw [if_pos hc]
        have hl2 : c.loadEntry (pre ++ (c.encodeAll (e :: es) ++ tail)) pre.length true
            (24 + (c.payload e.body).length) = .ok (c.hdr e) (c.payload e.body) := by
          rw [hfile, loadEntry_encode c e he pre _ _ (by omega) true]; simp
        rw [hl2]
        obtain ⟨t, b⟩ := e
        cases b with
        | data d => simp [Body.ty, tyData, tyConf] at hc
        | noop => simp [Body.ty, tyNoOp, tyConf] at hc
        | conf k =>
          simp only [Codec.payload, c.parse_ser]
          simp only [Codec.payload] at hrec hlast
          rw [hrec]
          simp only [Codec.offsets, confsOf, encode_length, Codec.payload, hlast]
      · rw [if_neg hc, hrec]
        have hconf : confsOf idx (e :: es) = confsOf (idx + 1) es := by
          obtain ⟨t, b⟩ := e
          cases b with
          | data d => rfl
          | noop => rfl
          | conf k => simp [Body.ty, tyConf] at hc
        rw [hconf]
        simp only [Codec.offsets, encode_length, hlast]

theorem encodeAll_length_ge (c : Codec K) (es : List (Entry K)) :
    es.length ≤ (c.encodeAll es).length ∧ (es ≠ [] → es.length < (c.encodeAll es).length) := by
  induction es with
  | nil => simp [Codec.encodeAll]
  | cons e es ih =>
    rw [encodeAll_cons, List.length_append, encode_length]
    simp; omega

/-- Loading an open segment. -/
theorem load_open (c : Codec K) (recover : Bool) (first : Nat) (hpos : 1 ≤ first)
    (last bytes : Nat) (es : List (Entry K)) (hf : ∀ e ∈ es, e.Fits c) (tail : Bytes) (ht : Torn c tail) :
    ∃ seg, c.load recover ⟨first, last, true, [], bytes⟩ (c.encodeAll es ++ tail) =
        some (seg, confsOf first es, (c.encodeAll es).length) ∧
      SegRep c seg es ∧ seg.isOpen = true ∧ seg.first = first := by
  have hge := encodeAll_length_ge c es
  have hfuel : es.length < (c.encodeAll es ++ tail).length ∨
      (es.length = (c.encodeAll es ++ tail).length ∧ tail = []) := by
    rw [List.length_append]
    by_cases hes : es = []
    · subst hes
      by_cases htl : tail = []
      · right; subst htl; simp [Codec.encodeAll]
      · left
        have := List.length_pos_iff.mpr htl
        simp; omega
    · left; have := hge.2 hes; omega
  have hs := scan_spec c es hf tail ht [] (c.encodeAll es ++ tail).length first hfuel
  simp only [List.nil_append, List.length_nil, Nat.zero_add] at hs
  unfold Codec.load
  dsimp only
  rw [hs]
  simp only [decide_true, Bool.true_and, Bool.true_or, Bool.not_true, Bool.false_and,
    Bool.false_eq_true, if_false, if_true]
  refine ⟨_, rfl, ⟨rfl, ?_, hpos, rfl, hf⟩, rfl, rfl⟩
  show first + (c.offsets 0 es).length - 1 + 1 = first + es.length
  rw [offsets_length]; omega

/-- Loading a full segment whose file is complete. -/
theorem load_closed (c : Codec K) (recover : Bool) (first : Nat) (hpos : 1 ≤ first)
    (last bytes : Nat) (es : List (Entry K)) (hf : ∀ e ∈ es, e.Fits c)
    (hlast : last + 1 = first + es.length) :
    ∃ seg, c.load recover ⟨first, last, false, [], bytes⟩ (c.encodeAll es) =
        some (seg, confsOf first es, (c.encodeAll es).length) ∧
      SegRep c seg es ∧ seg.isOpen = false ∧ seg.first = first ∧ seg.last = last := by
  have hge := encodeAll_length_ge c es
  have hfuel : es.length < (c.encodeAll es ++ []).length ∨
      (es.length = (c.encodeAll es ++ []).length ∧ ([] : Bytes) = []) := by
    rw [List.append_nil]
    by_cases hes : es = []
    · right; subst hes; simp [Codec.encodeAll]
    · left; exact hge.2 hes
  have hs := scan_spec c es hf [] (Or.inl rfl) [] (c.encodeAll es ++ []).length first hfuel
  simp only [List.nil_append, List.length_nil, Nat.zero_add, List.append_nil] at hs
  unfold Codec.load
  dsimp only
  rw [hs]
  have hact : first + (c.offsets 0 es).length - 1 = last := by rw [offsets_length]; omega
  simp only [hact, decide_true, Bool.or_true, Bool.and_true, Bool.not_true, Bool.false_and,
    Bool.false_eq_true, if_false]
  exact ⟨_, rfl, ⟨rfl, hlast, hpos, rfl, hf⟩, rfl, rfl, rfl⟩

theorem append_spec (c : Codec K) (seg : Seg) (es : List (Entry K)) (h : SegRep c seg es)
    (ho : seg.isOpen = true) (e : Entry K) (he : e.Fits c) :
    ∃ seg', c.append seg (seg.last + 1) e = some (seg', c.encode e) ∧ SegRep c seg' (es ++ [e]) ∧
      seg'.isOpen = true ∧ seg'.first = seg.first ∧ seg'.last = seg.last + 1 := by
  unfold Codec.append
  simp only [ho, Bool.not_true, Bool.false_eq_true, if_false, ne_eq, not_true_eq_false]
  refine ⟨_, rfl, ⟨?_, ?_, h.pos, ?_, ?_⟩, ?_, rfl, rfl⟩
  · show seg.offs ++ [(seg.bytes, e.term)] = _
    rw [offsets_append, h.offs, h.bytes, Nat.zero_add]; rfl
  · show seg.last + 1 + 1 = seg.first + _
    have := h.last
    simp; omega
  · show seg.bytes + _ = _
    rw [encodeAll_append, List.length_append, h.bytes]; simp [Codec.encodeAll]
  · intro x hx
    rcases List.mem_append.mp hx with hx | hx
    · exact h.fits x hx
    · simp at hx; subst hx; exact he
  · rfl

theorem getMeta_spec (c : Codec K) (seg : Seg) (es : List (Entry K)) (h : SegRep c seg es) (i : Nat)
    (hi : i < es.length) :
    seg.getMeta (seg.first + i) = some ((c.encodeAll (es.take i)).length, es[i].term,
      (c.encode es[i]).length) := by
  unfold Seg.getMeta
  have hl := h.last
  have h1 : ¬ (seg.first + i > seg.last ∨ seg.first + i < seg.first) := by omega
  rw [if_neg h1]
  have h2 : seg.first + i - seg.first = i := by omega
  rw [h2, h.offs, offsets_get c 0 es i hi]
  simp only [Nat.zero_add]
  have hstep : ∀ (j : Nat) (hj : j < es.length), (c.encodeAll (es.take (j + 1))).length =
      (c.encodeAll (es.take j)).length + (c.encode es[j]).length := by
    intro j hj
    rw [List.take_add_one, List.getElem?_eq_getElem hj, encodeAll_append, List.length_append]
    simp [Codec.encodeAll]
  congr 3
  by_cases hlt : seg.first + i < seg.last
  · rw [if_pos hlt, offsets_get c 0 es (i + 1) (by omega)]
    simp only [Option.map_some, Option.getD_some, Nat.zero_add]
    rw [hstep i hi]; omega
  · rw [if_neg hlt, h.bytes]
    have : es.take (i + 1) = es := List.take_of_length_le (by omega)
    have h3 := hstep i hi
    rw [this] at h3; omega

theorem split_at (es : List (Entry K)) (i : Nat) (hi : i < es.length) :
    es = es.take i ++ (es[i] :: es.drop (i + 1)) := by
  rw [List.getElem_cons_drop, List.take_append_drop]

theorem get_spec (c : Codec K) (seg : Seg) (es : List (Entry K)) (h : SegRep c seg es) (i : Nat)
    (hi : i < es.length) : c.get seg (c.encodeAll es) (seg.first + i) = some es[i] := by
  unfold Codec.get
  rw [getMeta_spec c seg es h i hi]
  have hfile : c.encodeAll es = c.encodeAll (es.take i) ++ (c.encode es[i] ++ c.encodeAll (es.drop (i + 1))) := by
    rw [← encodeAll_cons, ← encodeAll_append, ← split_at es i hi]
  have he := h.fits es[i] (List.getElem_mem hi)
  have hfile' := congrArg (fun f => c.loadEntry f (c.encodeAll (es.take i)).length true (c.encode es[i]).length) hfile
  dsimp only at hfile' ⊢
  rw [hfile', loadEntry_encode c es[i] he _ _ _ (by rw [encode_length]; omega) true]
  simp only [if_true]
  exact toEntry_hdr c _

theorem getTerm_spec (c : Codec K) (seg : Seg) (es : List (Entry K)) (h : SegRep c seg es) (i : Nat)
    (hi : i < es.length) : seg.getTerm (seg.first + i) = es[i].term := by
  unfold Seg.getTerm
  rw [getMeta_spec c seg es h i hi]

theorem truncate_spec (c : Codec K) (seg : Seg) (es : List (Entry K)) (h : SegRep c seg es) (kept : Nat)
    (h1 : seg.first ≤ kept) (h2 : kept < seg.last) :
    ∃ seg', seg.truncate kept = some (seg', (c.encodeAll (es.take (kept + 1 - seg.first))).length) ∧
      SegRep c seg' (es.take (kept + 1 - seg.first)) ∧ seg'.isOpen = true ∧ seg'.first = seg.first ∧
      seg'.last = kept ∧
      (c.encodeAll es).take (c.encodeAll (es.take (kept + 1 - seg.first))).length =
        c.encodeAll (es.take (kept + 1 - seg.first)) := by
  unfold Seg.truncate
  have hl := h.last
  rw [if_neg (by omega : ¬ kept ≥ seg.last)]
  dsimp only
  have hn : kept + 1 - seg.first < es.length := by omega
  rw [h.offs, offsets_get c 0 es _ hn]
  simp only [Option.map_some, Option.getD_some, Nat.zero_add]
  refine ⟨_, rfl, ⟨?_, ?_, h.pos, rfl, ?_⟩, rfl, rfl, rfl, ?_⟩
  · show (c.offsets 0 es).take _ = c.offsets 0 (es.take _)
    have hs : es = es.take (kept + 1 - seg.first) ++ es.drop (kept + 1 - seg.first) :=
      (List.take_append_drop _ _).symm
    have := congrArg (c.offsets 0) hs
    rw [offsets_append] at this
    rw [this]
    apply List.take_append_of_le_length ?_ |>.trans
    · rw [List.take_of_length_le]; rw [offsets_length, List.length_take]; omega
    · rw [offsets_length, List.length_take]; omega
  · show kept + 1 = seg.first + _
    rw [List.length_take]; omega
  · intro x hx; exact h.fits x (List.mem_of_mem_take hx)
  · have hs : es = es.take (kept + 1 - seg.first) ++ es.drop (kept + 1 - seg.first) :=
      (List.take_append_drop _ _).symm
    have := congrArg c.encodeAll hs
    rw [encodeAll_append] at this
    rw [this]
    exact take_append_len _ _ _ rfl

end Braft.Store
