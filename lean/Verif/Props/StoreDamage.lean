import Verif.Props.Store

/-
C54: opening a log directory with arbitrary contents (missing files, cut or overwritten files): what a successful
`init` guarantees, whatever is on the disk, and what it does not.
-/
set_option linter.unusedVariables false

namespace Braft.Props
open Braft.Store

variable {K : Type}

/-- The segments follow each other without a gap. -/
def Contig : List Seg → Prop
  | [] => True
  | [_] => True
  | a :: b :: r => b.first = a.last + 1 ∧ Contig (b :: r)

/-- The same for files. -/
def ContigF : List CFile → Prop
  | [] => True
  | [_] => True
  | a :: b :: r => b.first = a.last + 1 ∧ ContigF (b :: r)

theorem listF_some (first : Nat) : ∀ (fs : List CFile) (l : Nat) (acts : List Act) (keep : List CFile),
    listClosed first (some l) fs = (acts, some keep) →
    keep = fs ∧ (∀ f ∈ keep, f.first ≤ f.last) ∧ (∀ f, keep.head? = some f → f.first = l + 1) ∧ ContigF keep
  | [], l, acts, keep, h => by
    unfold listClosed at h; cases h
    exact ⟨rfl, fun _ h => (by cases h), fun _ h => (by cases h), trivial⟩
  | f :: fs, l, acts, keep, h => by
    unfold listClosed at h
    by_cases h1 : f.first > f.last
    · rw [if_pos h1] at h; cases h
    · rw [if_neg h1] at h
      dsimp only at h
      by_cases h2 : f.first ≠ l + 1
      · rw [if_pos h2] at h; cases h
      · rw [if_neg h2] at h
        cases hr : listClosed first (some f.last) fs with
        | mk a k =>
          rw [hr] at h
          cases k with
          | none => cases h
          | some k =>
            obtain ⟨i1, i2, i3, i4⟩ := listF_some first fs f.last a k hr
            cases h
            subst i1
            refine ⟨rfl, ?_, ?_, ?_⟩
            · intro x hx
              rcases List.mem_cons.mp hx with rfl | hx
              · omega
              · exact i2 x hx
            · intro x hx; cases hx; omega
            · cases k with
              | nil => trivial
              | cons y ys => exact ⟨i3 y rfl, i4⟩

theorem listF_none (first : Nat) : ∀ (fs : List CFile) (acts : List Act) (keep : List CFile),
    listClosed first none fs = (acts, some keep) →
    (∀ f ∈ keep, f ∈ fs ∧ f.first ≤ f.last) ∧ (∀ f, keep.head? = some f → f.first ≤ first ∧ first ≤ f.last) ∧
      ContigF keep
  | [], acts, keep, h => by
    unfold listClosed at h; cases h
    exact ⟨fun _ h => (by cases h), fun _ h => (by cases h), trivial⟩
  | f :: fs, acts, keep, h => by
    unfold listClosed at h
    by_cases h1 : f.first > f.last
    · rw [if_pos h1] at h; cases h
    · rw [if_neg h1] at h
      dsimp only at h
      by_cases h2 : first < f.first
      · rw [if_pos h2] at h; cases h
      · rw [if_neg h2] at h
        by_cases h3 : first > f.last
        · rw [if_pos h3] at h
          cases hr : listClosed first none fs with
          | mk a k =>
            rw [hr] at h
            dsimp only at h
            cases h
            obtain ⟨i1, i2, i3⟩ := listF_none first fs a keep hr
            exact ⟨fun x hx => ⟨List.mem_cons_of_mem _ (i1 x hx).1, (i1 x hx).2⟩, i2, i3⟩
        · rw [if_neg h3] at h
          cases hr : listClosed first (some f.last) fs with
          | mk a k =>
            rw [hr] at h
            cases k with
            | none => cases h
            | some k =>
              obtain ⟨i1, i2, i3, i4⟩ := listF_some first fs f.last a k hr
              cases h
              subst i1
              refine ⟨?_, ?_, ?_⟩
              · intro x hx
                refine ⟨hx, ?_⟩
                rcases List.mem_cons.mp hx with rfl | hx
                · omega
                · exact i2 x hx
              · intro x hx; cases hx; omega
              · cases k with
                | nil => trivial
                | cons y ys => exact ⟨i3 y rfl, i4⟩

/-- A closed segment whose file does not hold exactly the entries its name says is refused. -/
theorem load_closed_exact (c : Codec K) (recover : Bool) (f l : Nat) (file : Bytes) (seg : Seg)
    (confs : List (Nat × Nat × K)) (size : Nat)
    (h : c.load recover ⟨f, l, false, [], 0⟩ file = some (seg, confs, size)) :
    seg.first = f ∧ seg.last = l ∧ seg.isOpen = false ∧ f + seg.offs.length - 1 = l := by
  unfold Codec.load at h
  dsimp only at h
  generalize c.scan file file.length 0 f = r at h
  split at h
  · cases h
  · rename_i hne
    cases h
    refine ⟨rfl, rfl, rfl, ?_⟩
    have : (decide (r.st = ScanSt.done) && decide (f + r.offs.length - 1 = l)) = true := by
      cases hx : (decide (r.st = ScanSt.done) && decide (f + r.offs.length - 1 = l)) with
      | true => rfl
      | false => simp [hx] at hne
    rw [Bool.and_eq_true] at this
    exact of_decide_eq_true this.2

theorem loadClosed_exact (c : Codec K) (recover : Bool) : ∀ (fs : List CFile) (l0 : Nat) (segs : List Seg)
    (confs : List (Nat × Nat × K)) (acts : List Act) (last : Nat),
    c.loadClosed recover l0 fs = some (segs, confs, acts, last) →
    segs.map (fun s => (s.first, s.last)) = fs.map (fun f => (f.first, f.last)) ∧
    (∀ s ∈ segs, s.isOpen = false ∧ s.first + s.offs.length - 1 = s.last) ∧
    last = (match fs.getLast? with | some f => f.last | none => l0)
  | [], l0, segs, confs, acts, last, h => by
    unfold Codec.loadClosed at h; cases h
    exact ⟨rfl, fun _ h => (by cases h), rfl⟩
  | f :: fs, l0, segs, confs, acts, last, h => by
    unfold Codec.loadClosed at h
    cases hl : c.load recover ⟨f.first, f.last, false, [], 0⟩ f.data with
    | none => rw [hl] at h; cases h
    | some x =>
      obtain ⟨seg, cf, sz⟩ := x
      rw [hl] at h
      dsimp only at h
      obtain ⟨e1, e2, e3, e4⟩ := load_closed_exact c recover _ _ _ _ _ _ hl
      cases hr : c.loadClosed recover seg.last fs with
      | none => rw [hr] at h; cases h
      | some y =>
        obtain ⟨ss, cs, as, la⟩ := y
        rw [hr] at h
        cases h
        obtain ⟨i1, i2, i3⟩ := loadClosed_exact c recover fs seg.last ss cs as _ hr
        refine ⟨?_, ?_, ?_⟩
        · rw [List.map_cons, List.map_cons, i1, e1, e2]
        · intro s hs
          rcases List.mem_cons.mp hs with rfl | hs
          · exact ⟨e3, by rw [e1, e2]; exact e4⟩
          · exact i2 s hs
        · cases fs with
          | nil => rw [i3]; exact e2
          | cons g gs => rw [List.getLast?_cons_cons]; rw [List.getLast?_eq_some_getLast (by simp)] at i3 ⊢; exact i3

theorem contig_of_files : ∀ (segs : List Seg) (fs : List CFile),
    segs.map (fun s => (s.first, s.last)) = fs.map (fun f => (f.first, f.last)) → ContigF fs → Contig segs
  | [], _, _, _ => trivial
  | [_], _, _, _ => trivial
  | a :: b :: r, [], h, _ => by cases h
  | a :: b :: r, [x], h, _ => by simp at h
  | a :: b :: r, x :: y :: fs, h, hc => by
    simp only [List.map_cons, List.cons.injEq, Prod.mk.injEq] at h
    obtain ⟨⟨h1, h2⟩, ⟨h3, h4⟩, h5⟩ := h
    refine ⟨by rw [h3, h2]; exact hc.1, contig_of_files (b :: r) (y :: fs) ?_ hc.2⟩
    simp only [List.map_cons, h3, h4, h5]

/-- Whatever the log directory contains: if the log opens, then every closed segment in use holds exactly as many
records as its file name says, the closed segments follow each other without a gap, and the first one contains
first_log_index. A directory in which a record of a closed segment is missing or unreadable, or a closed segment in
between is missing, does not open. Partial: nothing is said of a gap before the open segment, see
`C54_gap_before_open_segment`. -/
theorem C54_closed_exact_partial (c : Codec K) (recover : Bool) (d : Disk) (hpos : ∀ f ∈ d.closed, 1 ≤ f.first)
    (acts : List Act) (m : Mem) (confs : List (Nat × Nat × K)) (h : c.init recover d = (acts, some (m, confs))) :
    (∀ s ∈ m.segs, s.isOpen = false ∧ s.first ≤ s.last ∧ s.offs.length = s.last + 1 - s.first) ∧
    Contig m.segs ∧
    (∀ s, m.segs.head? = some s → s.first ≤ m.first ∧ m.first ≤ s.last) ∧
    (∀ n, d.metaIdx = some n → m.first = n) := by
  unfold Codec.init at h
  cases hmeta : d.metaIdx with
  | none =>
    rw [hmeta] at h
    cases h
    exact ⟨fun _ h => (by cases h), trivial, fun _ h => (by cases h), fun n h => (by cases h)⟩
  | some first =>
    rw [hmeta] at h
    dsimp only at h
    by_cases ho : d.opens.length > 1
    · rw [if_pos ho] at h; cases h
    · rw [if_neg ho] at h
      cases hr : listClosed first none d.closed with
      | mk a k =>
        rw [hr] at h
        cases k with
        | none => cases h
        | some keep =>
          dsimp only at h
          obtain ⟨i1, i2, i3⟩ := listF_none first d.closed a keep hr
          cases hl : c.loadClosed recover 0 keep with
          | none => rw [hl] at h; cases h
          | some x =>
            obtain ⟨segs, cf, as, last⟩ := x
            rw [hl] at h
            dsimp only at h
            obtain ⟨e1, e2, e3⟩ := loadClosed_exact c recover keep 0 segs cf as last hl
            have key : m.segs = segs → m.first = first → _ := fun (hs : m.segs = segs) (hf : m.first = first) => by
              show (∀ s ∈ m.segs, s.isOpen = false ∧ s.first ≤ s.last ∧ s.offs.length = s.last + 1 - s.first) ∧
                Contig m.segs ∧ (∀ s, m.segs.head? = some s → s.first ≤ m.first ∧ m.first ≤ s.last) ∧
                (∀ n, some first = some n → m.first = n)
              rw [hs, hf]
              refine ⟨?_, contig_of_files segs keep e1 i3, ?_, fun n h => (by cases h; rfl)⟩
              · intro s hs
                obtain ⟨g1, g2⟩ := e2 s hs
                have hm : (s.first, s.last) ∈ keep.map (fun f => (f.first, f.last)) := by
                  rw [← e1]; exact List.mem_map_of_mem (f := fun s : Seg => (s.first, s.last)) hs
                obtain ⟨f, hf, hfe⟩ := List.mem_map.mp hm
                have h1 : f.first = s.first := (Prod.mk.inj hfe).1
                have h2 : f.last = s.last := (Prod.mk.inj hfe).2
                have h3 := i1 f hf
                have h4 := hpos f h3.1
                have h5 := h3.2
                refine ⟨g1, by omega, by omega⟩
              · intro s hs
                cases segs with
                | nil => cases hs
                | cons z zs =>
                  cases hs
                  cases keep with
                  | nil => cases e1
                  | cons f fs =>
                    simp only [List.map_cons, List.cons.injEq, Prod.mk.injEq] at e1
                    have := i2 f rfl
                    omega
            cases hop : d.opens with
            | nil =>
              rw [hop] at h
              cases h
              exact key rfl rfl
            | cons o os =>
              obtain ⟨f, b⟩ := o
              rw [hop] at h
              dsimp only at h
              cases hlo : c.load recover ⟨f, f - 1, true, [], 0⟩ b with
              | none => rw [hlo] at h; cases h
              | some y =>
                obtain ⟨seg, cf', size⟩ := y
                rw [hlo] at h
                dsimp only at h
                split at h
                · cases h; exact key rfl rfl
                · cases h; exact key rfl rfl

/-- Non-vacuity: the directory of a four-entry log in two closed segments and an open one opens. -/
example : ∃ acts m confs, demo.init false
      ⟨some 1, [⟨1, 2, demo.encodeAll [eA, eB]⟩, ⟨3, 3, demo.encodeAll [eC]⟩], [(4, demo.encodeAll [eD])]⟩
        = (acts, some (m, confs)) ∧ m.segs.length = 2 ∧ m.last = 4 := by
  refine ⟨_, _, _, rfl, ?_, ?_⟩ <;> decide +kernel

/-- The same directory with the last record of the first file cut off does not open. -/
example : (demo.init false
      ⟨some 1, [⟨1, 2, demo.encodeAll [eA]⟩, ⟨3, 3, demo.encodeAll [eC]⟩], [(4, demo.encodeAll [eD])]⟩).2.isNone = true := by
  decide +kernel

/-- What does not hold: a gap before the open segment is only logged (log.cpp:1090-1103). With the file of entry 3
lost, the log opens with first index 1 and last index 4, and entry 3 is not there. -/
theorem C54_gap_before_open_segment :
    ∃ acts m confs, demo.init false ⟨some 1, [⟨1, 2, demo.encodeAll [eA, eB]⟩], [(4, demo.encodeAll [eD])]⟩
        = (acts, some (m, confs)) ∧ m.first = 1 ∧ m.last = 4 ∧
      demo.getEntry m ⟨some 1, [⟨1, 2, demo.encodeAll [eA, eB]⟩], [(4, demo.encodeAll [eD])]⟩ 3 = none ∧
      demo.getEntry m ⟨some 1, [⟨1, 2, demo.encodeAll [eA, eB]⟩], [(4, demo.encodeAll [eD])]⟩ 4 = some eD := by
  refine ⟨_, _, _, rfl, ?_, ?_, ?_, ?_⟩ <;> decide +kernel

end Braft.Props
