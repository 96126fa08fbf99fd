import Verif.Snap.FileCopy
/-
Lemmas and the invariant for the copying of a file (Snap/FileCopy.lean).
-/
set_option linter.unusedSectionVars false
set_option linter.unusedSimpArgs false
set_option linter.unusedVariables false

namespace Braft.FileCopy
open Braft.Store (Bytes be unbe pread be_length unbe_be)

/-- `f` read as if it had at least `n` bytes. -/
def pad (f : Bytes) (n : Nat) : Bytes := f ++ zeros (n - f.length)

theorem zeros_length (n : Nat) : (zeros n).length = n := List.length_replicate

theorem zeros_add (a b : Nat) : zeros a ++ zeros b = zeros (a + b) := by simp [zeros]

theorem pad_length (f : Bytes) (n : Nat) (h : f.length ≤ n) : (pad f n).length = n := by
  simp only [pad, List.length_append, zeros_length]; omega

theorem pad_self (f : Bytes) : pad f f.length = f := by simp [pad, zeros]

theorem pad_pad (f : Bytes) (a b : Nat) (h : f.length ≤ a) (h2 : a ≤ b) : pad f b = pad f a ++ zeros (b - a) := by
  simp only [pad, List.append_assoc, zeros_add]
  congr 2; omega

theorem pwrite_end (f : Bytes) (o : Nat) (d : Bytes) (h : f.length ≤ o) : pwrite f o d = pad f o ++ d := by
  have h1 : f.drop (o + d.length) = [] := List.drop_eq_nil_of_le (by omega)
  unfold pwrite
  rw [h1, List.append_nil, List.take_of_length_le]
  · rfl
  · exact Nat.le_of_eq (pad_length f o h)

theorem bufWrite_end (f : Bytes) (o : Nat) (d : Bytes) (h : f.length ≤ o) : bufWrite f o d = pad f o ++ d := by
  unfold bufWrite
  rw [List.take_of_length_le]
  · rfl
  · exact Nat.le_of_eq (pad_length f o h)

theorem take_add_pread (file : Bytes) (o n : Nat) : file.take o ++ pread file o n = file.take (o + n) := by
  rw [pread, List.take_add]

theorem pread_add (file : Bytes) (o a b : Nat) : pread file o a ++ pread file (o + a) b = pread file o (a + b) := by
  simp only [pread, List.take_add, List.drop_drop]

/-- The segments a decoder can read back. -/
def SegOk (x : Nat × Bytes) : Prop := x.2 ≠ [] ∧ x.2.length < 2 ^ 32 ∧ x.1 < 2 ^ 64

theorem decode_nil : decode [] = [] := by unfold decode; simp

theorem decode_seg (x : Nat × Bytes) (rest : Bytes) (h : SegOk x) : decode (segBytes x ++ rest) = x :: decode rest := by
  obtain ⟨o, d⟩ := x
  obtain ⟨h1, h2, h3⟩ := h
  dsimp only at h1 h2 h3
  have hpos : 0 < d.length := List.length_pos_iff.mpr h1
  have l8 := be_length 8 o
  have l4 := be_length 4 d.length
  have e : segBytes (o, d) ++ rest = be 8 o ++ (be 4 d.length ++ (d ++ rest)) := by
    simp only [segBytes, List.append_assoc]
  have t8 : (segBytes (o, d) ++ rest).take 8 = be 8 o := by
    rw [e]; exact Store.take_append_len _ _ _ l8
  have d8 : (segBytes (o, d) ++ rest).drop 8 = be 4 d.length ++ (d ++ rest) := by
    rw [e]; exact Store.drop_append_len _ _ _ l8
  have d12 : (segBytes (o, d) ++ rest).drop 12 = d ++ rest := by
    have : (segBytes (o, d) ++ rest).drop 12 = ((segBytes (o, d) ++ rest).drop 8).drop 4 := by rw [List.drop_drop]
    rw [this, d8]; exact Store.drop_append_len _ _ _ l4
  have t4 : ((segBytes (o, d) ++ rest).drop 8).take 4 = be 4 d.length := by
    rw [d8]; exact Store.take_append_len _ _ _ l4
  have hne : segBytes (o, d) ++ rest ≠ [] := by
    intro hc
    have := congrArg List.length hc
    rw [e] at this
    simp only [List.length_append, l8, List.length_nil] at this
    omega
  have u4 : unbe (be 4 d.length) = d.length := by rw [unbe_be]; exact Nat.mod_eq_of_lt (by omega)
  have u8 : unbe (be 8 o) = o := by rw [unbe_be]; exact Nat.mod_eq_of_lt (by omega)
  rw [decode, dif_neg hne]
  dsimp only
  rw [t4, t8, d12, u4, u8, if_neg (by omega), Store.take_append_len _ _ _ rfl, Store.drop_append_len _ _ _ rfl]

theorem decode_encode (l : List (Nat × Bytes)) (h : ∀ x ∈ l, SegOk x) : decode (encode l) = l := by
  induction l with
  | nil => exact decode_nil
  | cons x l ih =>
    have : encode (x :: l) = segBytes x ++ encode l := rfl
    rw [this, decode_seg x _ (h x (List.mem_cons_self ..)), ih (fun y hy => h y (List.mem_cons_of_mem _ hy))]

theorem writeSegs_append (tb : Bool) (f : Bytes) (a b : List (Nat × Bytes)) :
    writeSegs tb f (a ++ b) = writeSegs tb (writeSegs tb f a) b := by
  induction a generalizing f with
  | nil => rfl
  | cons x a ih => obtain ⟨o, d⟩ := x; exact ih _

theorem writeSegs_one (tb : Bool) (f : Bytes) (o : Nat) (d : Bytes) (h : f.length ≤ o) :
    writeSegs tb f [(o, d)] = pad f o ++ d := by
  cases tb
  · exact pwrite_end f o d h
  · exact bufWrite_end f o d h

/-- What is written so far is the file up to `x`, up to a run of zeros at its end. -/
def Upto (file f : Bytes) (x : Nat) : Prop := f.length ≤ x ∧ pad f x = file.take x

theorem Upto.zeros {file f : Bytes} {x : Nat} (h : Upto file f x) (n : Nat) (hz : pread file x n = FileCopy.zeros n) :
    Upto file f (x + n) := by
  refine ⟨by have := h.1; omega, ?_⟩
  rw [pad_pad f x (x + n) h.1 (by omega), h.2, ← take_add_pread, hz]
  congr 2; omega

theorem Upto.write {file f : Bytes} {x : Nat} (h : Upto file f x) (tb : Bool) (d : Bytes) (hd : d = pread file x d.length) :
    Upto file (writeSegs tb f [(x, d)]) (x + d.length) ∧ (writeSegs tb f [(x, d)]).length = x + d.length := by
  have e : writeSegs tb f [(x, d)] = pad f x ++ d := writeSegs_one tb f x d h.1
  have el : (writeSegs tb f [(x, d)]).length = x + d.length := by
    rw [e, List.length_append, pad_length f x h.1]
  refine ⟨⟨Nat.le_of_eq el, ?_⟩, el⟩
  rw [← el, pad_self, el, e, h.2]
  conv => lhs; rw [hd]
  rw [take_add_pread]

/-- The writer of segments has taken the bytes of the file from `x0` up to `x`, if the destination was good up to `x0`. -/
structure WInv (tb : Bool) (file f : Bytes) (x0 : Nat) (w : Segs) (x : Nat) : Prop where
  ge : x0 ≤ x
  segs : ∀ y ∈ w.closed, SegOk y
  cnone : w.cur = none → Upto file (writeSegs tb f w.closed) x
  csome : ∀ o b, w.cur = some (o, b) → Upto file (writeSegs tb f w.closed) o ∧ b = pread file o b.length ∧ b ≠ [] ∧
    x0 ≤ o ∧ o + b.length ≤ x ∧ pread file (o + b.length) (x - (o + b.length)) = zeros (x - (o + b.length))

theorem WInv.close {tb : Bool} {file f : Bytes} {x0 : Nat} {w : Segs} {x : Nat} (h : WInv tb file f x0 w x)
    (hm : x < x0 + 2 ^ 32) (h64 : x < 2 ^ 64) : (∀ y ∈ w.close, SegOk y) ∧ Upto file (writeSegs tb f w.close) x := by
  obtain ⟨cl, cur⟩ := w
  cases cur with
  | none => exact ⟨by simpa [Segs.close] using h.segs, by simpa [Segs.close] using h.cnone rfl⟩
  | some p =>
    obtain ⟨o, b⟩ := p
    obtain ⟨a1, a2, a3, a4, a5, a6⟩ := h.csome o b rfl
    constructor
    · intro y hy
      simp only [Segs.close, Option.toList, List.mem_append, List.mem_singleton] at hy
      rcases hy with hy | hy
      · exact h.segs y hy
      · subst hy; exact ⟨a3, by dsimp only; omega, by dsimp only; omega⟩
    · have := (a1.write tb b a2).1.zeros _ a6
      simp only [Segs.close, Option.toList, writeSegs_append]
      have e : o + b.length + (x - (o + b.length)) = x := by omega
      rwa [e] at this

theorem pread_split {file : Bytes} {x : Nat} {p : Bytes} {rest : Bytes} {n : Nat} (h : p ++ rest = pread file x n) :
    p = pread file x p.length ∧ rest = pread file (x + p.length) (n - p.length) := by
  constructor
  · have := congrArg (List.take p.length) h
    rw [List.take_left] at this
    have hl := congrArg List.length h
    rw [List.length_append, Store.pread_length] at hl
    rw [pread, List.take_take, Nat.min_eq_left (by omega)] at this
    exact this
  · have := congrArg (List.drop p.length) h
    rw [List.drop_left] at this
    rw [this, pread, pread, List.drop_take, List.drop_drop]

theorem all_zero (p : Bytes) (h : p.all (fun b => b == 0) = true) : p = zeros p.length := by
  rw [zeros, List.eq_replicate_iff]
  refine ⟨rfl, fun b hb => ?_⟩
  have := List.all_eq_true.mp h b hb
  simpa using this

/-- One block. -/
theorem WInv.piece {tb : Bool} {file f : Bytes} {x0 : Nat} {w : Segs} {x : Nat} (h : WInv tb file f x0 w x) (p : Bytes)
    (hp : p = pread file x p.length) (hm : x + p.length < x0 + 2 ^ 32) (h64 : x + p.length < 2 ^ 64) :
    WInv tb file f x0 (if p.all (fun b => b == 0) then w else w.append p x) (x + p.length) := by
  have hge := h.ge
  by_cases hz : p.all (fun b => b == 0) = true
  · rw [if_pos hz]
    have hz' : pread file x p.length = zeros p.length := by rw [← hp]; exact all_zero p hz
    refine ⟨by omega, h.segs, fun hn => (h.cnone hn).zeros _ hz', ?_⟩
    intro o b ho
    obtain ⟨a1, a2, a3, a4, a5, a6⟩ := h.csome o b ho
    refine ⟨a1, a2, a3, a4, by omega, ?_⟩
    have e : x + p.length - (o + b.length) = (x - (o + b.length)) + p.length := by omega
    rw [e, ← pread_add, a6, show o + b.length + (x - (o + b.length)) = x by omega, hz', zeros_add]
  · rw [if_neg hz]
    have hpne : p ≠ [] := by intro hc; subst hc; exact hz rfl
    -- a new segment
    have fresh : WInv tb file f x0 ⟨w.close, some (x, p)⟩ (x + p.length) := by
      have hc := h.close (by omega) (by omega)
      refine ⟨by omega, hc.1, fun hn => by simp at hn, ?_⟩
      intro o b ho
      simp only [Option.some.injEq, Prod.mk.injEq] at ho
      obtain ⟨rfl, rfl⟩ := ho
      refine ⟨hc.2, hp, hpne, hge, Nat.le_refl _, ?_⟩
      rw [Nat.sub_self]; simp [pread, zeros]
    unfold Segs.append
    obtain ⟨cl, cur⟩ := w
    cases cur with
    | none => exact fresh
    | some q =>
      obtain ⟨o, b⟩ := q
      dsimp only
      by_cases hm2 : o ≠ 0 ∧ x = o + b.length
      · rw [if_pos hm2]
        obtain ⟨a1, a2, a3, a4, a5, a6⟩ := h.csome o b rfl
        refine ⟨by omega, h.segs, fun hn => by simp at hn, ?_⟩
        intro o' b' ho
        simp only [Option.some.injEq, Prod.mk.injEq] at ho
        obtain ⟨rfl, rfl⟩ := ho
        refine ⟨a1, ?_, by simp [a3], a4, by rw [List.length_append]; omega, ?_⟩
        · rw [List.length_append, ← pread_add, ← a2, ← hm2.2, ← hp]
        · rw [List.length_append, ← Nat.add_assoc, ← hm2.2, Nat.sub_self]; simp [pread, zeros]
      · rw [if_neg hm2]; exact fresh

theorem WInv.fold {tb : Bool} {file f : Bytes} {x0 : Nat} (pieces : List Bytes) (w : Segs) (x n : Nat)
    (h : WInv tb file f x0 w x) (hp : pieces.flatten = pread file x n)
    (hm : x + (pread file x n).length < x0 + 2 ^ 32) (h64 : x + (pread file x n).length < 2 ^ 64) :
    let r := pieces.foldl (fun (y : Segs × Nat) p =>
      (if p.all (fun b => b == 0) then y.1 else y.1.append p y.2, y.2 + p.length)) (w, x)
    WInv tb file f x0 r.1 (x + (pread file x n).length) := by
  induction pieces generalizing w x n with
  | nil =>
    dsimp only [List.foldl]
    rw [← hp]; exact h
  | cons p l ih =>
    simp only [List.foldl]
    rw [List.flatten_cons] at hp
    obtain ⟨e1, e2⟩ := pread_split hp
    have el := congrArg List.length hp
    rw [List.length_append, e2] at el
    have h' := h.piece p e1 (by omega) (by omega)
    have := ih _ (x + p.length) (n - p.length) h' e2 (by omega) (by omega)
    dsimp only at this
    rw [show x + p.length + (pread file (x + p.length) (n - p.length)).length = x + (pread file x n).length by omega] at this
    exact this

/-- What a response carries makes the destination good up to the end of what was read. -/
theorem attach_upto (tb holes : Bool) (file f : Bytes) (off n : Nat) (pieces : List Bytes) (h : Upto file f off)
    (hp : pieces.flatten = pread file off n) (hn : n < 2 ^ 32) (h64 : file.length < 2 ^ 64) (hoff : off ≤ file.length) :
    Upto file (writeSegs tb f (decode (attach holes off (pread file off n) pieces))) (off + (pread file off n).length) ∧
      (holes = false → f.length = off →
        (writeSegs tb f (decode (attach holes off (pread file off n) pieces))).length = off + (pread file off n).length) := by
  have hl : (pread file off n).length ≤ n := by rw [Store.pread_length]; omega
  have hl2 : off + (pread file off n).length ≤ file.length := by rw [Store.pread_length]; omega
  unfold attach
  by_cases h0 : pread file off n = []
  · rw [if_pos h0, decode_nil, h0]
    exact ⟨h, fun _ he => he⟩
  · rw [if_neg h0]
    cases holes with
    | false =>
      simp only [Bool.not_false, if_true]
      have e : (Segs.empty.append (pread file off n) off).close = [(off, pread file off n)] := rfl
      rw [e, decode_encode _ (by
        intro y hy
        rw [List.mem_singleton] at hy
        subst hy
        exact ⟨h0, by dsimp only; omega, by dsimp only; omega⟩)]
      have := h.write tb (pread file off n) (by
        rw [Store.pread_length]
        simp only [pread]
        rw [List.take_eq_take_iff, List.length_drop]
        omega)
      exact ⟨this.1, fun _ _ => this.2⟩
    | true =>
      simp only [Bool.not_true]
      rw [if_neg (by simp)]
      refine ⟨?_, fun hc => by simp at hc⟩
      have hw : WInv tb file f off Segs.empty off :=
        ⟨Nat.le_refl _, fun y hy => (by cases hy), fun _ => h, fun o b ho => (by cases ho)⟩
      have := WInv.fold pieces _ off n hw hp (by omega) (by omega)
      dsimp only at this
      have hc := this.close (by omega) (by omega)
      rw [decode_encode _ hc.1]
      exact hc.2

variable {N : Type} [DecidableEq N]

/-- A response that is fit for the request. -/
def Good (c : Cfg) (q : Req) : Resp → Prop
  | .err _ => True
  | .ok att n eof => ∃ pieces max, att = attach c.holes q.off (pread c.file q.off max) pieces ∧
      pieces.flatten = pread c.file q.off max ∧ n = (pread c.file q.off max).length ∧ max ≤ q.count ∧ 0 < max ∧
      (q.partly = false → max = q.count) ∧ (eof = true → c.file.length ≤ q.off + n) ∧ (eof = false → n = max)

theorem serve_good (c : Cfg) (r : Reader N) (name : N) (q : Req) (grant : Option Nat) (y : Sys) (pieces : List Bytes)
    (hp : pieces.flatten = pread c.file q.off (capped grant q.count)) : Good c q (serve r name c.file c.holes q grant y pieces) := by
  unfold serve
  by_cases h0 : q.count = 0
  · rw [if_pos h0]; trivial
  rw [if_neg h0]
  dsimp only
  generalize hmx : capped grant q.count = max at hp ⊢
  have hle : max ≤ q.count := by
    subst hmx
    cases grant with
    | none => exact Nat.le_refl _
    | some g => exact Nat.min_le_right ..
  by_cases h1 : max < q.count ∧ (!q.partly ∨ max = 0)
  · rw [if_pos h1]; trivial
  rw [if_neg h1]
  have hpos : 0 < max := by
    rcases Nat.eq_zero_or_pos max with h | h
    · exact absurd ⟨by omega, Or.inr h⟩ h1
    · exact h
  have hfull : q.partly = false → max = q.count := by
    intro hq
    rcases Nat.lt_or_ge max q.count with h | h
    · exact absurd ⟨h, Or.inl (by simp [hq])⟩ h1
    · omega
  have hlen := Store.pread_length c.file q.off max
  unfold Reader.read
  by_cases h2 : r.reading = true
  · rw [if_pos h2]; trivial
  rw [if_neg h2]
  by_cases h3 : r.cur ≠ some name ∧ (!r.eof ∨ q.off ≠ 0)
  · rw [if_pos h3]; trivial
  rw [if_neg h3]
  by_cases h4 : r.cur ≠ some name ∧ !y.openOk
  · rw [if_pos h4]; trivial
  rw [if_neg h4]
  dsimp only
  by_cases h5 : (!y.readOk) = true
  · rw [if_pos h5]; trivial
  rw [if_neg h5]
  by_cases h6 : (pread c.file q.off max).length < max
  · rw [if_pos h6]
    refine ⟨pieces, max, rfl, hp, rfl, hle, hpos, hfull, fun _ => ?_, fun hc => by simp at hc⟩
    omega
  rw [if_neg h6]
  by_cases h7 : (!y.sizeOk) = true
  · rw [if_pos h7]; trivial
  rw [if_neg h7]
  refine ⟨pieces, max, rfl, hp, rfl, hle, hpos, hfull, fun he => ?_, fun _ => by omega⟩
  have : c.file.length = q.off + max := by simpa using he
  omega

/-- What the session has is the file up to `x`. -/
def Got (c : Cfg) (s : State) (x : Nat) : Prop :=
  x ≤ c.file.length ∧ Upto c.file s.dest x ∧ (c.holes = false → s.dest.length = x)

structure Inv (c : Cfg) (P : Bool) (s : State) : Prop where
  reqCall : ∀ q ∈ s.reqs, q.call ≤ s.call
  req : s.pc = .waiting → ∀ q ∈ s.reqs, q.call = s.call → q = ⟨s.call, s.off, s.count, P⟩
  resp : ∀ x ∈ s.resps, ∃ q ∈ s.reqs, q.call = x.1 ∧ Good c q x.2
  idle : s.pc = .sending ∨ s.pc = .timer → Got c s (s.off + s.count)
  wait : s.pc = .waiting → Got c s s.off ∧ s.count < 2 ^ 32
  done : s.pc = .finished → s.ok = true → Got c s c.file.length

theorem Inv.start (c : Cfg) (P : Bool) : Inv c P State.start where
  reqCall := by intro q hq; cases hq
  req := by intro h; cases h
  resp := by intro x hx; cases hx
  idle := by
    intro _
    exact ⟨Nat.zero_le _, ⟨Nat.le_refl _, by simp [pad, zeros, State.start]⟩, fun _ => rfl⟩
  wait := by intro h; cases h
  done := by intro h; cases h

theorem inv_finish_false {c : Cfg} {P : Bool} {s t : State} (h : Inv c P s) (hr : t.reqs = s.reqs) (hrs : t.resps = s.resps)
    (hc : t.call = s.call) (hp : t.pc = .finished) (ho : t.ok = false) : Inv c P t where
  reqCall := by rw [hr, hc]; exact h.reqCall
  req := by intro hw; rw [hp] at hw; cases hw
  resp := by rw [hrs, hr]; exact h.resp
  idle := by intro hw; rw [hp] at hw; rcases hw with hw | hw <;> cases hw
  wait := by intro hw; rw [hp] at hw; cases hw
  done := by intro _ hk; rw [ho] at hk; cases hk

theorem Inv.send {c : Cfg} {P : Bool} {s : State} (h : Inv c P s) (chunk : Nat) (grant : Option Nat) (hc : chunk < 2 ^ 32) :
    Inv c P (s.send chunk P grant) := by
  unfold State.send
  by_cases hi : s.pc = .sending ∨ s.pc = .timer
  · rw [if_pos hi]
    dsimp only
    have hle : capped grant chunk ≤ chunk := by
      cases grant with
      | none => exact Nat.le_refl _
      | some g => exact Nat.min_le_right ..
    generalize capped grant chunk = n at hle ⊢
    have hg := h.idle hi
    by_cases hn : n = 0
    · rw [if_pos hn]
      exact ⟨h.reqCall, fun hw => (by cases hw), h.resp, fun _ => hg, fun hw => (by cases hw), fun hw => (by cases hw)⟩
    · rw [if_neg hn]
      refine ⟨?_, ?_, ?_, fun hw => (by rcases hw with hw | hw <;> cases hw), fun _ => ⟨hg, by dsimp only; omega⟩, fun hw => (by cases hw)⟩
      · intro q hq
        dsimp only at hq ⊢
        rcases List.mem_cons.mp hq with rfl | hq
        · exact Nat.le_refl _
        · have := h.reqCall q hq; omega
      · intro _ q hq hqc
        dsimp only at hq hqc ⊢
        rcases List.mem_cons.mp hq with rfl | hq
        · rfl
        · have := h.reqCall q hq; omega
      · intro x hx
        obtain ⟨q, hq, e⟩ := h.resp x hx
        exact ⟨q, List.mem_cons_of_mem _ hq, e⟩
  · rw [if_neg hi]; exact h

theorem Inv.failed {c : Cfg} {P : Bool} {s : State} (h : Inv c P s) (again cancelled : Bool) (m : Nat) :
    Inv c P (s.failed again cancelled m) := by
  unfold State.failed
  by_cases hw : s.pc = .waiting
  · rw [if_pos hw]
    split
    · exact inv_finish_false h rfl rfl rfl rfl rfl
    split
    · exact inv_finish_false h rfl rfl rfl rfl rfl
    · exact ⟨h.reqCall, fun hc => (by cases hc), h.resp, fun _ => (h.wait hw).1, fun hc => (by cases hc), fun hc => (by cases hc)⟩
  · rw [if_neg hw]; exact h

theorem Inv.returned {c : Cfg} {P : Bool} {s : State} (h64 : c.file.length < 2 ^ 64) (h : Inv c P s) (att : Bytes) (n : Nat)
    (e w cl : Bool) (got : Bytes) (hr : (s.call, Resp.ok att n e) ∈ s.resps) :
    Inv c P (s.returned c.toBuf att n e P w cl got) := by
  unfold State.returned
  by_cases hw : s.pc = .waiting
  · rw [if_pos hw]
    dsimp only
    by_cases hwo : (!w) = true
    · rw [if_pos hwo]; exact inv_finish_false h rfl rfl rfl rfl rfl
    rw [if_neg hwo]
    obtain ⟨q, hq, hqc, hg⟩ := h.resp _ hr
    have hqe := h.req hw q hq hqc
    obtain ⟨⟨h1, h2, h3⟩, h4⟩ := h.wait hw
    obtain ⟨pieces, max, ha, hp, hn, hle, hpos, hfull, heof, hneof⟩ := hg
    subst hqe
    dsimp only at ha hp hn hle hfull heof hneof
    have hup := attach_upto c.toBuf c.holes c.file s.dest s.off max pieces h2 hp (by omega) h64 h1
    rw [← ha, ← hn] at hup
    have hb : s.off + n ≤ c.file.length := by
      rw [hn, Store.pread_length]; omega
    have hgot : ∀ t : State, t.dest = writeSegs c.toBuf s.dest (decode att) → Got c t (s.off + n) := by
      intro t ht
      refine ⟨hb, ?_, fun hh => ?_⟩
      · rw [ht]; exact hup.1
      · rw [ht]; exact hup.2 hh (h3 hh)
    cases e with
    | true =>
      rw [if_pos rfl]
      refine ⟨h.reqCall, fun hc => (by cases hc), h.resp, fun hc => (by rcases hc with hc | hc <;> cases hc), fun hc => (by cases hc), ?_⟩
      intro _ _
      have hx := heof rfl
      have : s.off + n = c.file.length := by omega
      rw [← this]
      exact hgot _ rfl
    | false =>
      rw [if_neg (by simp)]
      have hnm := hneof rfl
      refine ⟨h.reqCall, fun hc => (by cases hc), h.resp, ?_, fun hc => (by cases hc), fun hc => (by cases hc)⟩
      intro _
      have ec : (if n ≠ 0 ∧ P = true then n else s.count) = n := by
        cases P with
        | true => rw [if_pos ⟨by omega, rfl⟩]
        | false =>
          rw [if_neg (by simp), hnm]
          exact (hfull rfl).symm
      dsimp only
      rw [ec]
      exact hgot _ rfl
  · rw [if_neg hw]; exact h

theorem Inv.step {c : Cfg} {name : N} {P : Bool} {s t : State} (h64 : c.file.length < 2 ^ 64) (h : Inv c P s) (hs : Step c name P s t) :
    Inv c P t := by
  cases hs with
  | send chunk grant h0 hc => exact h.send chunk grant hc
  | serve q r grant y pieces hq hp =>
    refine ⟨h.reqCall, h.req, ?_, h.idle, h.wait, h.done⟩
    intro x hx
    dsimp only at hx ⊢
    rcases List.mem_cons.mp hx with rfl | hx
    · exact ⟨q, hq, rfl, serve_good c r name q grant y pieces hp⟩
    · exact h.resp x hx
  | failed again cancelled m => exact h.failed again cancelled m
  | returned att n e w cl got hr => exact h.returned h64 att n e w cl got hr
  | cancel =>
    unfold State.cancel
    split
    · exact h
    · exact inv_finish_false h rfl rfl rfl rfl rfl

theorem Run.inv {c : Cfg} {name : N} {P : Bool} {s : State} (h64 : c.file.length < 2 ^ 64) (hf : c.flagChanges = false)
    (h : Run c name P s) : Inv c P s := by
  induction h with
  | start P => exact Inv.start c P
  | step _ hs ih => exact ih.step h64 hs
  | flag _ P' hc => rw [hf] at hc; cases hc

end Braft.FileCopy
