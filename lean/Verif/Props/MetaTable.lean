import Verif.Snap.MetaTableInv
/-
C88: the table of the files of a snapshot.

What the user of a SnapshotWriter says with add_file, remove_file and save_meta is what every reader of the snapshot is told by
list_files, get_file_meta and load_meta: in the same process, after it was written to disk and read again, and on a peer that
fetched it.
-/
set_option linter.unusedVariables false
set_option linter.unusedSimpArgs false

namespace Braft.Props.MetaTable
open Braft.Tab

/-- What a sequence of calls (the last one at the head) says about a file: listed with this metadata, or not listed. A file that
is listed keeps its first metadata. -/
def Says (k : Bytes) : List Op → Option FileMeta
  | [] => none
  | .add k' v :: before =>
    match Says k before with
    | some m => some m
    | none => if k' = k then some (v.getD .empty) else none
  | .remove k' :: before => if k' = k then none else Says k before
  | .setMeta _ :: before => Says k before

/-- What it says of the snapshot itself. -/
def SaysMeta : List Op → SnapMeta
  | [] => .empty
  | .setMeta m :: _ => m
  | _ :: before => SaysMeta before

/-- The table after these calls on an empty writer, the last one at the head. -/
def after (l : List Op) : Table := Table.empty.ops l.reverse

theorem after_cons (o : Op) (l : List Op) : after (o :: l) = ((after l).op o).1 := by
  unfold after Table.ops
  rw [List.reverse_cons, List.foldl_append]
  rfl

theorem sorted_after (l : List Op) : Sorted (after l).files := Table.sorted_ops (by simp [Table.empty, Sorted]) _

/-- C88: after any calls, get_file_meta answers what they say of the file. -/
theorem C88_get (l : List Op) (k : Bytes) : (after l).get k = Says k l := by
  induction l with
  | nil => rfl
  | cons o l ih =>
    rw [after_cons]
    unfold Table.get at ih ⊢
    cases o with
    | add k' v =>
      simp only [Says]
      rw [← ih]
      unfold Table.op Table.add
      dsimp only
      cases hf : find k' (after l).files with
      | some m =>
        dsimp only
        by_cases he : k' = k
        · subst he; rw [hf]
        · cases find k (after l).files <;> simp [he]
      | none =>
        dsimp only
        rw [find_put]
        by_cases he : k' = k
        · subst he; simp [hf]
        · rw [if_neg (fun e => he e.symm)]
          cases find k (after l).files <;> simp [he]
    | remove k' =>
      simp only [Says]
      rw [← ih]
      unfold Table.op Table.remove
      dsimp only
      cases hf : find k' (after l).files with
      | none =>
        dsimp only
        by_cases he : k' = k
        · subst he; rw [hf]; simp
        · simp [he]
      | some m =>
        dsimp only
        rw [find_cut (sorted_after l)]
        by_cases he : k' = k
        · subst he; simp
        · rw [if_neg (fun e => he e.symm), if_neg he]
    | setMeta m => exact ih

/-- C88: add_file answers 0 exactly for files that are not listed, remove_file for those that are; save_meta always. -/
theorem C88_result (l : List Op) (o : Op) :
    ((after l).op o).2 = match o with
      | .add k _ => if (Says k l).isSome then -1 else 0
      | .remove k => if (Says k l).isSome then 0 else -1
      | .setMeta _ => 0 := by
  cases o with
  | add k v =>
    dsimp only
    rw [← C88_get]
    unfold Table.op Table.add Table.get
    dsimp only
    cases find k (after l).files <;> rfl
  | remove k =>
    dsimp only
    rw [← C88_get]
    unfold Table.op Table.remove Table.get
    dsimp only
    cases find k (after l).files <;> rfl
  | setMeta m => rfl

/-- C88: list_files gives the listed files, each once, in increasing order. -/
theorem C88_list (l : List Op) : (∀ k, k ∈ (after l).list ↔ (Says k l).isSome = true) ∧ (after l).list.Pairwise (· < ·) := by
  refine ⟨fun k => ?_, ?_⟩
  · rw [← C88_get]; exact find_mem
  · unfold Table.list
    rw [List.pairwise_map]
    exact sorted_after l

theorem info_after (l : List Op) : (after l).info = SaysMeta l := by
  induction l with
  | nil => rfl
  | cons o l ih =>
    rw [after_cons]
    cases o with
    | add k v => unfold Table.op Table.add; dsimp only; split <;> exact ih
    | remove k => unfold Table.op Table.remove; dsimp only; split <;> exact ih
    | setMeta m => rfl

/-- C88: the last save_meta counts. Without index and term it is as if there were none. -/
theorem C88_meta (l : List Op) : (after l).meta? = if (SaysMeta l).index.isSome ∧ (SaysMeta l).term.isSome then some (SaysMeta l) else none := by
  unfold Table.meta? SnapMeta.init
  rw [info_after]
  simp only [Bool.and_eq_true]

/-- Two tables that no call tells apart. -/
def Same (t u : Table) : Prop := t.list = u.list ∧ (∀ k, t.get k = u.get k) ∧ t.meta? = u.meta?

theorem be32_val (n : Nat) (h : n < 2 ^ 31) (r : Bytes) :
    ∃ a b c d, be32 n ++ r = a :: b :: c :: d :: r ∧ a * 2 ^ 24 + b * 2 ^ 16 + c * 2 ^ 8 + d = n :=
  ⟨_, _, _, _, rfl, by omega⟩

theorem meta_getD (t : Table) : (⟨t.meta?.getD .empty, t.files⟩ : Table).meta? = t.meta? := by
  by_cases h : t.info.init = true
  · have e : t.meta? = some t.info := by unfold Table.meta?; rw [if_pos h]
    rw [e]
    unfold Table.meta?
    exact if_pos h
  · have e : t.meta? = none := by unfold Table.meta?; rw [if_neg h]
    rw [e]
    rfl

theorem meta_num {l : List Op} (hn : (SaysMeta l).Num) (r : Bool) : ∀ s ∈ ((after l).toPb r).info, s.Num := by
  intro s hs
  have hs : (after l).meta? = some s := hs
  unfold Table.meta? at hs
  split at hs
  · cases hs; rw [info_after]; exact hn
  · cases hs

theorem serialized {l : List Op} {r : Bool} (hl : (enc ((after l).toPb r).fields).length < 2 ^ 31) :
    ((after l).toPb r).serialize = some (enc ((after l).toPb r).fields) := by
  unfold Pb.serialize
  rw [if_pos ⟨toPb_init _ _, hl⟩]

/-- C88: what save_to_file has written, load_from_file reads, whatever the reading table held before and whatever comes after it
in the file; if the message has less than 2^31 bytes, and index and term have 64 bits. -/
theorem C88_saved (l : List Op) (t : Table) (left : Pb) (rest : Bytes) (hn : (SaysMeta l).Num)
    (hl : (enc ((after l).toPb false).fields).length < 2 ^ 31) :
    (t.ofFile left ((after l).toFile ++ rest)).2 = 0 ∧ Same (t.ofFile left ((after l).toFile ++ rest)).1 (after l) := by
  have hs := serialized hl
  have hp := parse_serialize (meta_num hn false) hs
  generalize hb : enc ((after l).toPb false).fields = b at hs hp hl
  have he : (after l).toFile = be32 b.length ++ b := by unfold Table.toFile; rw [hs]
  obtain ⟨w, x, y, z, h1, h2⟩ := be32_val b.length hl (b ++ rest)
  have h3 : t.ofFile left ((after l).toFile ++ rest) = (Table.ofPb ((after l).toPb false), 0) := by
    rw [he, List.append_assoc, h1]
    unfold Table.ofFile
    dsimp only
    rw [h2, if_neg (by simp; omega), List.take_append_of_le_length (Nat.le_refl _), List.take_length, hp]
    rfl
  rw [h3]
  refine ⟨rfl, ?_⟩
  rw [Table.ofPb_toPb _ (sorted_after l)]
  have h4 : (after l).files.map (fun f => (f.1, if false = true then { f.2 with source := none } else f.2)) = (after l).files := by
    conv => rhs; rw [← List.map_id (after l).files]
    apply List.map_congr_left
    intro f _
    rfl
  rw [h4]
  exact ⟨rfl, fun k => rfl, meta_getD _⟩

/-- C88: what a peer is sent it reads, but for the source of a file, which is left out; it is sent something exactly if the
message has less than 2^31 bytes. -/
theorem C88_remote (l : List Op) (t : Table) (hn : (SaysMeta l).Num) :
    ((after l).toRemote.isSome = true ↔ (enc ((after l).toPb true).fields).length < 2 ^ 31) ∧
    ∀ b, (after l).toRemote = some b → (t.ofRemote b).2 = 0 ∧ (t.ofRemote b).1.list = (after l).list ∧
      (t.ofRemote b).1.meta? = (after l).meta? ∧
      ∀ k, (t.ofRemote b).1.get k = (Says k l).map (fun m => ⟨m.userMeta, none, m.checksum⟩) := by
  refine ⟨?_, fun b hb => ?_⟩
  · unfold Table.toRemote Pb.serialize
    by_cases h : (enc ((after l).toPb true).fields).length < 2 ^ 31
    · rw [if_pos ⟨toPb_init _ _, h⟩]; simp [h]
    · rw [if_neg (fun hc => h hc.2)]; simp [h]
  · have hp := parse_serialize (meta_num hn true) hb
    have h3 : t.ofRemote b = (Table.ofPb ((after l).toPb true), 0) := by
      unfold Table.ofRemote
      rw [hp]
    rw [h3, Table.ofPb_toPb _ (sorted_after l)]
    refine ⟨rfl, ?_, meta_getD ⟨(after l).info, _⟩ |>.trans rfl, fun k => ?_⟩
    · unfold Table.list
      dsimp only
      rw [List.map_map]
      rfl
    · rw [← C88_get]
      unfold Table.get
      dsimp only
      induction (after l).files with
      | nil => rfl
      | cons a r ih =>
        simp only [List.map_cons, find]
        split
        · rfl
        · exact ih

/-- C88: bytes from a peer that are no message are refused, and change nothing. -/
theorem C88_remote_refused (t : Table) (b : Bytes) : (t.ofRemote b).2 = if (parse b).isSome then 0 else -1 := by
  unfold Table.ofRemote
  cases parse b <;> rfl

theorem C88_refused_keeps (t : Table) (b : Bytes) (h : (t.ofRemote b).2 ≠ 0) : (t.ofRemote b).1 = t := by
  revert h
  unfold Table.ofRemote
  cases parse b <;> simp

theorem ofFile_cases (t : Table) (left : Pb) (f : Bytes) : t.ofFile left f = (t, -1) ∨ ∃ m, t.ofFile left f = (Table.ofPb m, 0) := by
  match f with
  | [] => exact Or.inl rfl
  | [_] => exact Or.inl rfl
  | [_, _] => exact Or.inl rfl
  | [_, _, _] => exact Or.inl rfl
  | a :: b :: c :: d :: r =>
    rw [Table.ofFile]
    generalize a * 2 ^ 24 + b * 2 ^ 16 + c * 2 ^ 8 + d = n
    generalize 2 ^ 31 = m
    by_cases h : m ≤ n ∨ r.length < n
    · left; exact if_pos h
    · right; exact ⟨_, if_neg h⟩

/-- C88: whatever a peer or the disk says, files are listed once, in order, and have metadata. -/
theorem C88_loaded (t : Table) (ht : t.list.Pairwise (· < ·)) (left : Pb) (b : Bytes) :
    ((t.ofRemote b).1.list.Pairwise (· < ·) ∧ ∀ k, k ∈ (t.ofRemote b).1.list ↔ ((t.ofRemote b).1.get k).isSome = true) ∧
    ((t.ofFile left b).1.list.Pairwise (· < ·) ∧ ∀ k, k ∈ (t.ofFile left b).1.list ↔ ((t.ofFile left b).1.get k).isSome = true) := by
  have key : ∀ m : Pb, (Table.ofPb m).list.Pairwise (· < ·) := by
    intro m
    unfold Table.list Table.ofPb
    rw [List.pairwise_map]
    exact sorted_fold (fun f : PbFile => f.name.getD []) (fun f => f.info.getD .empty) m.files [] (by simp [Sorted])
  refine ⟨⟨?_, fun k => find_mem⟩, ?_, fun k => find_mem⟩
  · unfold Table.ofRemote
    split
    · exact ht
    · exact key _
  · rcases ofFile_cases t left b with h | ⟨m, h⟩
    · rw [h]; exact ht
    · rw [h]; exact key _

/-! ### What does not hold -/

/-- One file with user metadata, and the snapshot's meta. -/
def calls : List Op := [.setMeta ⟨some 7, some 2, [[49]], []⟩, .add [98] none, .remove [99], .add [99] none,
  .add [97] (some ⟨some [1, 2], some .reference, some [51]⟩)]

example : (after calls).list = [[97], [98]] := by decide +kernel
example : (after calls).toFile = [0, 0, 0, 32, 10, 7, 8, 7, 16, 2, 26, 1, 49, 18, 14, 10, 1, 97, 18, 9, 10, 2, 1, 2, 16, 1, 26, 1, 51,
    18, 5, 10, 1, 98, 18, 0] := by decide +kernel
example : (SaysMeta calls).Num ∧ (enc ((after calls).toPb false).fields).length < 2 ^ 31 := by
  refine ⟨⟨?_, ?_⟩, by decide +kernel⟩ <;> simp [SaysMeta, calls]
example : (after calls).toRemote.isSome = true := by decide +kernel

/-- C88, the rest is false: the table of a snapshot whose meta file is damaged is loaded without an error, from what the parser
made of it. Here one byte of a file that save_to_file wrote is another one, and no file is listed. -/
theorem C88_damaged_violated : ∃ l i, ∀ t : Table, t.ofFile .empty ((after l).toFile.set i 7) = (Table.empty, 0) ∧ (after l).list ≠ [] ∧
    parse (((after l).toFile.set i 7).drop 4) = none := by
  refine ⟨calls, 4, fun t => ⟨?_, by decide +kernel, by decide +kernel⟩⟩
  have h : ∀ f : Bytes, f = (after calls).toFile.set 4 7 → (Table.empty.ofFile .empty f) = (Table.empty, 0) := by
    intro f hf
    subst hf
    decide +kernel
  have h1 := h _ rfl
  revert h1
  generalize (after calls).toFile.set 4 7 = f
  unfold Table.ofFile
  intro h1
  split at h1
  · dsimp only at h1 ⊢
    split at h1
    · rename_i h2
      exact absurd (congrArg Prod.snd h1) (by decide)
    · rename_i h2
      rw [if_neg h2]
      exact h1
  · exact absurd (congrArg Prod.snd h1) (by decide)

/-- C88, the rest is false: a table whose message has 2^31 bytes or more is saved as an empty one, without an error. -/
theorem C88_large_violated (l : List Op) (h : 2 ^ 31 ≤ (enc ((after l).toPb false).fields).length) (t : Table) (left : Pb) :
    t.ofFile left (after l).toFile = (Table.empty, 0) := by
  have hs : ((after l).toPb false).serialize = none := by
    unfold Pb.serialize
    rw [if_neg (fun hc => by omega)]
  unfold Table.toFile
  rw [hs]
  rfl

theorem large (n : Nat) : ∃ l, n ≤ (enc ((after l).toPb false).fields).length := by
  generalize hk : List.replicate n 0 = k
  have hn : k.length = n := by rw [← hk, List.length_replicate]
  refine ⟨[.add k none], ?_⟩
  have h1 : (after [.add k none]).files = [(k, .empty)] := rfl
  have h2 : (2, Val.len (enc (PbFile.fields ⟨some k, some .empty⟩))) ∈ ((after [.add k none]).toPb false).fields := by
    unfold Pb.fields Table.toPb
    rw [h1]
    simp only [List.map_cons, List.mem_append, List.mem_cons]
    exact Or.inr (Or.inl rfl)
  have h3 : (1, Val.len k) ∈ PbFile.fields ⟨some k, some .empty⟩ := by
    unfold PbFile.fields opt
    exact List.mem_append_left _ List.mem_cons_self
  have h4 := Nat.le_trans (enc_mem h3) (enc_mem h2)
  rw [hn] at h4
  exact h4

example : ∃ l, 2 ^ 31 ≤ (enc ((after l).toPb false).fields).length := large _

end Braft.Props.MetaTable
