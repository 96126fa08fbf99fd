/-
On-disk records of a segment: log.cpp:81-95 (format), 119-171 (checksums), 174-232
(`Segment::_load_entry`), 379-447 (`Segment::append`), with raft/util.h `RawPacker`/`RawUnpacker`
(big-endian packing).

Bytes are `UInt8`, a file is the list of its bytes. The two checksum functions and the protobuf
serialisation of a configuration (protobuf_file / storage.cpp `serialize_configuration_meta`) are
parameters; about the latter it is only assumed that parsing undoes serialising.
I/O errors (a negative return of pread/write) are not part of this file.
-/
set_option linter.unusedVariables false
set_option linter.unusedSimpArgs false
set_option linter.unusedSectionVars false

namespace Braft.Store

abbrev Bytes := List UInt8

/-- util.h RawPacker: `k` bytes of `n`, most significant first. -/
def be : Nat → Nat → Bytes
  | 0, _ => []
  | k + 1, n => be k (n / 256) ++ [UInt8.ofNat (n % 256)]

/-- util.h RawUnpacker. -/
def unbe (b : Bytes) : Nat := b.foldl (fun acc x => acc * 256 + x.toNat) 0

/-- enum.proto EntryType. -/
def tyNoOp : Nat := 1
def tyData : Nat := 2
def tyConf : Nat := 3

/-- log_entry.h LogEntry without its index (its place in the log). -/
inductive Body (K : Type) where
  | data (d : Bytes)
  | noop
  | conf (c : K)
deriving DecidableEq, Repr

structure Entry (K : Type) where
  term : Nat
  body : Body K
deriving DecidableEq, Repr

/-- The parameters: util.h murmurhash32 and crc32, used by log.cpp:119-171, and (de)serialisation of
configurations. `ckType` is `_checksum_type` (0 or 1). -/
structure Codec (K : Type) where
  murmur : Bytes → UInt32
  crc : Bytes → UInt32
  ckType : Nat
  ckType_le : ckType ≤ 1
  ser : K → Bytes
  parse : Bytes → Option K
  parse_ser : ∀ k, parse (ser k) = some k

variable {K : Type}

/-- log.cpp:145-171 `get_checksum`; only types 0 and 1 exist (other values abort). -/
def Codec.sum (c : Codec K) (ty : Nat) (b : Bytes) : UInt32 := if ty = 0 then c.murmur b else c.crc b

/-- log.cpp:119-143 `verify_checksum`: an unknown type never verifies. -/
def Codec.verify (c : Codec K) (ty : Nat) (b : Bytes) (value : Nat) : Bool :=
  if ty = 0 then value == (c.murmur b).toNat
  else if ty = 1 then value == (c.crc b).toNat
  else false

/-- log.cpp:391-412: type byte and data of an entry. -/
def Codec.payload (c : Codec K) : Body K → Bytes
  | .data d => d
  | .noop => []
  | .conf k => c.ser k

def Body.ty : Body K → Nat
  | .data _ => tyData
  | .noop => tyNoOp
  | .conf _ => tyConf

/-- log.cpp:414-420: the first 20 bytes of the header. `uint32_t` truncates the data length. -/
def Codec.header20 (c : Codec K) (e : Entry K) : Bytes :=
  be 8 e.term ++ be 4 (e.body.ty * 2 ^ 24 + c.ckType * 2 ^ 16)
    ++ be 4 ((c.payload e.body).length % 2 ^ 32)
    ++ be 4 (c.sum c.ckType (c.payload e.body)).toNat

/-- log.cpp:414-426: the whole record. -/
def Codec.encode (c : Codec K) (e : Entry K) : Bytes :=
  c.header20 e ++ be 4 (c.sum c.ckType (c.header20 e)).toNat ++ c.payload e.body

/-- log.cpp:89-95 `EntryHeader`. -/
structure Header where
  term : Nat
  type : Nat
  ckType : Nat
  dataLen : Nat
  dataSum : Nat
deriving DecidableEq, Repr

/-- `pread`: bytes available at `off`, at most `n`. -/
def pread (file : Bytes) (off n : Nat) : Bytes := (file.drop off).take n

/-- log.cpp:184-201: unpacking the 24 bytes. -/
def parseHeader (p : Bytes) : Header :=
  let m := unbe ((p.drop 8).take 4)
  { term := unbe (p.take 8), type := m / 2 ^ 24, ckType := m / 2 ^ 16 % 256,
    dataLen := unbe ((p.drop 12).take 4), dataSum := unbe ((p.drop 16).take 4) }

/-- Result of `_load_entry`: return code 1, -1 or 0. -/
inductive Load where
  | short | corrupt | ok (h : Header) (data : Bytes)
deriving DecidableEq, Repr

/-- log.cpp:174-232 `Segment::_load_entry`. `wantData = false` is `data == NULL` (then the data
component of the result is empty). -/
def Codec.loadEntry (c : Codec K) (file : Bytes) (off : Nat) (wantData : Bool) (hint : Nat) : Load :=
  let toRead := max hint 24
  let buf := pread file off toRead
  if buf.length ≠ toRead then .short
  else
    let h := parseHeader (buf.take 24)
    if !c.verify h.ckType (buf.take 20) (unbe ((buf.drop 20).take 4)) then .corrupt
    else if !wantData then .ok h []
    else
      let need := 24 + h.dataLen
      if buf.length < need then
        let more := pread file (off + buf.length) (need - buf.length)
        if more.length ≠ need - buf.length then .short
        else
          let data := (buf ++ more).drop 24
          if c.verify h.ckType data h.dataSum then .ok h data else .corrupt
      else
        let data := (buf.take need).drop 24
        if c.verify h.ckType data h.dataSum then .ok h data else .corrupt

/-- log.cpp:479-512 `Segment::get`, the part after `_get_meta`: parse what was loaded.
An unknown type makes `CHECK(false)` fail; a NO_OP carries no data. -/
def Codec.toEntry (c : Codec K) (h : Header) (data : Bytes) : Option (Entry K) :=
  if h.type = tyData then some ⟨h.term, .data data⟩
  else if h.type = tyNoOp then some ⟨h.term, .noop⟩
  else if h.type = tyConf then (c.parse data).map (fun k => ⟨h.term, .conf k⟩)
  else none

/-! ### Lemmas -/

theorem be_length (k n : Nat) : (be k n).length = k := by
  induction k generalizing n with
  | zero => rfl
  | succ k ih => simp [be, ih]

theorem unbe_append (a : Bytes) (x : UInt8) : unbe (a ++ [x]) = unbe a * 256 + x.toNat := by
  simp [unbe, List.foldl_append]

theorem unbe_be (k n : Nat) : unbe (be k n) = n % 256 ^ k := by
  induction k generalizing n with
  | zero => simp [be, unbe, Nat.mod_one]
  | succ k ih =>
    rw [be, unbe_append, ih]
    have h1 : (UInt8.ofNat (n % 256)).toNat = n % 256 := by
      simp
    rw [h1, Nat.pow_succ, Nat.mul_comm (256 ^ k) 256, Nat.mod_mul]
    omega

theorem header20_length (c : Codec K) (e : Entry K) : (c.header20 e).length = 20 := by
  simp [Codec.header20, be_length]

theorem encode_length (c : Codec K) (e : Entry K) :
    (c.encode e).length = 24 + (c.payload e.body).length := by
  simp [Codec.encode, header20_length, be_length]; omega

/-- An entry the format can hold. -/
def Entry.Fits (c : Codec K) (e : Entry K) : Prop :=
  e.term < 2 ^ 64 ∧ (c.payload e.body).length < 2 ^ 32

theorem take_append_len (a b : Bytes) (n : Nat) (h : a.length = n) : (a ++ b).take n = a := by
  subst h; simp

theorem drop_append_len (a b : Bytes) (n : Nat) (h : a.length = n) : (a ++ b).drop n = b := by
  subst h; simp

theorem ty_cases (b : Body K) : b.ty = 1 ∨ b.ty = 2 ∨ b.ty = 3 := by
  cases b <;> simp [Body.ty, tyData, tyNoOp, tyConf]

/-- Parsing the header of an encoded entry, whatever follows. -/
theorem parseHeader_encode (c : Codec K) (e : Entry K) (rest : Bytes) :
    parseHeader ((c.encode e ++ rest).take 24) =
      ⟨e.term % 2 ^ 64, e.body.ty, c.ckType, (c.payload e.body).length % 2 ^ 32,
        (c.sum c.ckType (c.payload e.body)).toNat⟩ := by
  have h24 : (c.encode e ++ rest).take 24 =
      c.header20 e ++ be 4 (c.sum c.ckType (c.header20 e)).toNat := by
    have : c.encode e ++ rest = (c.header20 e ++ be 4 (c.sum c.ckType (c.header20 e)).toNat) ++
      (c.payload e.body ++ rest) := by simp [Codec.encode]
    rw [this]
    exact take_append_len _ _ _ (by simp [header20_length, be_length])
  rw [h24]
  have hm : (e.body.ty * 2 ^ 24 + c.ckType * 2 ^ 16) < 256 ^ 4 := by
    have := c.ckType_le
    rcases ty_cases e.body with h | h | h <;> rw [h] <;> omega
  have hs : (c.sum c.ckType (c.payload e.body)).toNat < 256 ^ 4 := by
    have := (c.sum c.ckType (c.payload e.body)).toNat_lt
    omega
  unfold parseHeader Codec.header20
  simp only [List.append_assoc]
  have e1 : ∀ x : Bytes, (be 8 e.term ++ x).take 8 = be 8 e.term :=
    fun x => take_append_len _ _ _ (be_length _ _)
  have e2 : ∀ x : Bytes, (be 8 e.term ++ x).drop 8 = x := fun x => drop_append_len _ _ _ (be_length _ _)
  have e3 : ∀ (n : Nat) (x : Bytes), (be 8 e.term ++ x).drop (8 + n) = x.drop n := by
    intro n x; rw [← List.drop_drop, e2]
  have f1 : ∀ (n : Nat) (x : Bytes), (be 4 n ++ x).take 4 = be 4 n :=
    fun n x => take_append_len _ _ _ (be_length _ _)
  have f2 : ∀ (n : Nat) (x : Bytes), (be 4 n ++ x).drop 4 = x :=
    fun n x => drop_append_len _ _ _ (be_length _ _)
  rw [e1, e2, f1]
  have d12 : (12 : Nat) = 8 + 4 := rfl
  have d16 : (16 : Nat) = 8 + 8 := rfl
  have g8 : ∀ (n m : Nat) (x : Bytes), (be 4 n ++ (be 4 m ++ x)).drop 8 = x := by
    intro n m x
    have : (8 : Nat) = 4 + 4 := rfl
    rw [this, ← List.drop_drop, f2, f2]
  rw [d12, e3, f2, f1, d16, e3, g8, f1]
  simp only [unbe_be]
  rw [Nat.mod_eq_of_lt hm, Nat.mod_eq_of_lt hs]
  have hck := c.ckType_le
  congr 1
  · rcases ty_cases e.body with h | h | h <;> rw [h] <;> omega
  · rcases ty_cases e.body with h | h | h <;> rw [h] <;> omega
  · have h4 : (256 : Nat) ^ 4 = 2 ^ 32 := by decide
    rw [h4]; exact Nat.mod_mod _ _

theorem verify_sum (c : Codec K) (b : Bytes) : c.verify c.ckType b (c.sum c.ckType b).toNat = true := by
  unfold Codec.verify Codec.sum
  have := c.ckType_le
  by_cases h : c.ckType = 0
  · simp [h]
  · have h1 : c.ckType = 1 := by omega
    simp [h1]

theorem take20_encode (c : Codec K) (e : Entry K) (rest : Bytes) :
    (c.encode e ++ rest).take 20 = c.header20 e := by
  have : c.encode e ++ rest = c.header20 e ++ (be 4 (c.sum c.ckType (c.header20 e)).toNat ++
    c.payload e.body ++ rest) := by simp [Codec.encode]
  rw [this]; exact take_append_len _ _ _ (header20_length c e)

theorem sum_encode (c : Codec K) (e : Entry K) (rest : Bytes) :
    unbe (((c.encode e ++ rest).drop 20).take 4) = (c.sum c.ckType (c.header20 e)).toNat := by
  have : c.encode e ++ rest = c.header20 e ++ (be 4 (c.sum c.ckType (c.header20 e)).toNat ++
    (c.payload e.body ++ rest)) := by simp [Codec.encode]
  rw [this, drop_append_len _ _ _ (header20_length c e), take_append_len _ _ _ (be_length _ _), unbe_be]
  have := (c.sum c.ckType (c.header20 e)).toNat_lt
  have h4 : (256 : Nat) ^ 4 = 2 ^ 32 := by decide
  rw [h4]; exact Nat.mod_eq_of_lt this

/-- The header an entry is stored with. -/
def Codec.hdr (c : Codec K) (e : Entry K) : Header :=
  ⟨e.term, e.body.ty, c.ckType, (c.payload e.body).length, (c.sum c.ckType (c.payload e.body)).toNat⟩

theorem parseHeader_fits (c : Codec K) (e : Entry K) (hf : e.Fits c) (rest : Bytes) :
    parseHeader ((c.encode e ++ rest).take 24) = c.hdr e := by
  rw [parseHeader_encode, Nat.mod_eq_of_lt hf.1, Nat.mod_eq_of_lt hf.2]; rfl

theorem pread_length (file : Bytes) (off n : Nat) :
    (pread file off n).length = min n (file.length - off) := by
  simp [pread]

/-- Reading `n ≥ 24` bytes at the start of an encoded entry. -/
theorem pread_at (pre x : Bytes) (n : Nat) : pread (pre ++ x) pre.length n = x.take n := by
  simp [pread]

/-- Records: a complete record is read back, whatever surrounds it and whatever the size hint. -/
theorem loadEntry_encode (c : Codec K) (e : Entry K) (hf : e.Fits c) (pre post : Bytes) (hint : Nat)
    (hh : hint ≤ 24 + (c.payload e.body).length + post.length) (w : Bool) :
    c.loadEntry (pre ++ (c.encode e ++ post)) pre.length w hint =
      .ok (c.hdr e) (if w then c.payload e.body else []) := by
  unfold Codec.loadEntry
  dsimp only
  rw [pread_at]
  have hlen : (c.encode e ++ post).length = 24 + (c.payload e.body).length + post.length := by
    rw [List.length_append, encode_length]
  have hbl : ((c.encode e ++ post).take (max hint 24)).length = max hint 24 := by
    rw [List.length_take, hlen]; omega
  have t24 : ((c.encode e ++ post).take (max hint 24)).take 24 = (c.encode e ++ post).take 24 := by
    rw [List.take_take]; congr 1; omega
  have t20 : ((c.encode e ++ post).take (max hint 24)).take 20 = c.header20 e := by
    rw [List.take_take, show min 20 (max hint 24) = 20 by omega, take20_encode]
  have ts : (((c.encode e ++ post).take (max hint 24)).drop 20).take 4 =
      ((c.encode e ++ post).drop 20).take 4 := by
    rw [List.drop_take, List.take_take]; congr 1; omega
  simp only [hbl, ne_eq, not_true_eq_false, if_false]
  rw [t24, t20, ts, parseHeader_fits c e hf, sum_encode]
  have hv : c.verify (c.hdr e).ckType (c.header20 e) (c.sum c.ckType (c.header20 e)).toNat = true :=
    verify_sum c _
  simp only [hv, Bool.not_true, Bool.false_eq_true, if_false]
  cases w with
  | false => simp
  | true =>
    simp only [Bool.not_true, Bool.false_eq_true, if_false, if_true]
    have hdl : (c.hdr e).dataLen = (c.payload e.body).length := rfl
    have hvd : c.verify (c.hdr e).ckType (c.payload e.body) (c.hdr e).dataSum = true := verify_sum c _
    have hpay : ∀ y : Bytes, ((c.encode e ++ y).take (24 + (c.payload e.body).length)).drop 24 =
        c.payload e.body := by
      intro y
      rw [take_append_len _ _ _ (encode_length c e)]
      have : c.encode e = (c.header20 e ++ be 4 (c.sum c.ckType (c.header20 e)).toNat) ++ c.payload e.body :=
        rfl
      rw [this]
      exact drop_append_len _ _ _ (by simp [header20_length, be_length])
    rw [hdl]
    by_cases hlt : max hint 24 < 24 + (c.payload e.body).length
    · rw [if_pos hlt]
      have hmore : pread (pre ++ (c.encode e ++ post)) (pre.length + max hint 24)
          (24 + (c.payload e.body).length - max hint 24) =
          ((c.encode e ++ post).drop (max hint 24)).take (24 + (c.payload e.body).length - max hint 24) := by
        simp [pread, ← List.drop_drop]
      have hml : (((c.encode e ++ post).drop (max hint 24)).take
          (24 + (c.payload e.body).length - max hint 24)).length =
          24 + (c.payload e.body).length - max hint 24 := by
        rw [List.length_take, List.length_drop, hlen]; omega
      rw [hmore]
      simp only [hml, ne_eq, not_true_eq_false, if_false]
      have hjoin : (c.encode e ++ post).take (max hint 24) ++ ((c.encode e ++ post).drop (max hint 24)).take
          (24 + (c.payload e.body).length - max hint 24) =
          (c.encode e ++ post).take (24 + (c.payload e.body).length) := by
        rw [← List.take_add]; congr 1; omega
      rw [hjoin, hpay post, hvd]; simp
    · rw [if_neg hlt]
      have hjoin : ((c.encode e ++ post).take (max hint 24)).take (24 + (c.payload e.body).length) =
          (c.encode e ++ post).take (24 + (c.payload e.body).length) := by
        rw [List.take_take]; congr 1; omega
      rw [hjoin, hpay post, hvd]; simp

/-- What is returned was verified. -/
theorem loadEntry_sound (c : Codec K) (file : Bytes) (off : Nat) (w : Bool) (hint : Nat) (h : Header)
    (d : Bytes) (hl : c.loadEntry file off w hint = .ok h d) :
    off + 24 ≤ file.length ∧ h = parseHeader (pread file off 24) ∧
    c.verify h.ckType (pread file off 20) (unbe (pread file (off + 20) 4)) = true ∧
    (w = true → c.verify h.ckType d h.dataSum = true ∧ d.length = h.dataLen ∧
      d = pread file (off + 24) h.dataLen) := by
  unfold Codec.loadEntry at hl
  dsimp only at hl
  have hpl := pread_length file off (max hint 24)
  by_cases h1 : (pread file off (max hint 24)).length ≠ max hint 24
  · simp only [if_pos h1] at hl; simp at hl
  simp only [if_neg h1] at hl
  have h1' : (pread file off (max hint 24)).length = max hint 24 := by omega
  have hfl : off + max hint 24 ≤ file.length := by
    rw [hpl] at h1'; omega
  have t24 : (pread file off (max hint 24)).take 24 = pread file off 24 := by
    unfold pread; rw [List.take_take]; congr 1; omega
  have t20 : (pread file off (max hint 24)).take 20 = pread file off 20 := by
    unfold pread; rw [List.take_take]; congr 1; omega
  have ts : ((pread file off (max hint 24)).drop 20).take 4 = pread file (off + 20) 4 := by
    unfold pread; rw [List.drop_take, List.take_take, List.drop_drop]; congr 1; omega
  rw [t24, t20, ts] at hl
  generalize hH : parseHeader (pread file off 24) = H at hl
  cases hv : c.verify H.ckType (pread file off 20) (unbe (pread file (off + 20) 4)) with
  | false => rw [hv] at hl; simp at hl
  | true =>
    rw [hv] at hl
    simp only [Bool.not_true, Bool.false_eq_true, if_false] at hl
    cases w with
    | false =>
      simp only [Bool.not_false, if_true, Load.ok.injEq] at hl
      obtain ⟨rfl, rfl⟩ := hl
      exact ⟨by omega, rfl, hv, by simp⟩
    | true =>
      simp only [Bool.not_true, Bool.false_eq_true, if_false] at hl
      by_cases h2 : (pread file off (max hint 24)).length < 24 + H.dataLen
      · rw [if_pos h2] at hl
        by_cases h3 : (pread file (off + (pread file off (max hint 24)).length)
            (24 + H.dataLen - (pread file off (max hint 24)).length)).length ≠
            24 + H.dataLen - (pread file off (max hint 24)).length
        · rw [if_pos h3] at hl; simp at hl
        · rw [if_neg h3] at hl
          have h3' := Classical.not_not.mp h3
          rw [h1'] at hl h2 h3'
          have hjoin : pread file off (max hint 24) ++ pread file (off + max hint 24)
              (24 + H.dataLen - max hint 24) = pread file off (24 + H.dataLen) := by
            unfold pread
            rw [← List.drop_drop, ← List.take_add]; congr 1; omega
          have hd : (pread file off (24 + H.dataLen)).drop 24 = pread file (off + 24) H.dataLen := by
            unfold pread; rw [List.drop_take, List.drop_drop]; congr 1; omega
          rw [hjoin, hd] at hl
          split at hl
          · next hvd =>
            simp only [Load.ok.injEq] at hl
            obtain ⟨rfl, rfl⟩ := hl
            refine ⟨by omega, rfl, hv, fun _ => ⟨hvd, ?_, rfl⟩⟩
            rw [pread_length] at h3' ⊢; omega
          · simp at hl
      · rw [if_neg h2] at hl
        rw [h1'] at h2
        have hd : ((pread file off (max hint 24)).take (24 + H.dataLen)).drop 24 =
            pread file (off + 24) H.dataLen := by
          unfold pread; rw [List.take_take, List.drop_take, List.drop_drop]
          congr 1; omega
        rw [hd] at hl
        split at hl
        · next hvd =>
          simp only [Load.ok.injEq] at hl
          obtain ⟨rfl, rfl⟩ := hl
          refine ⟨by omega, rfl, hv, fun _ => ⟨hvd, ?_, rfl⟩⟩
          rw [pread_length]; omega
        · simp at hl

theorem toEntry_hdr (c : Codec K) (e : Entry K) : c.toEntry (c.hdr e) (c.payload e.body) = some e := by
  obtain ⟨t, b⟩ := e
  cases b with
  | data d => simp [Codec.toEntry, Codec.hdr, Codec.payload, Body.ty, tyData]
  | noop => simp [Codec.toEntry, Codec.hdr, Codec.payload, Body.ty, tyData, tyNoOp]
  | conf k =>
    simp [Codec.toEntry, Codec.hdr, Codec.payload, Body.ty, tyData, tyNoOp, tyConf, c.parse_ser]

end Braft.Store
