import Verif.Cluster.LogNodeBoot
/-
Every step of the joint model keeps the relation between a server's list and its LogManager: entries from the
leader.
-/
set_option linter.unusedVariables false
set_option linter.unusedSimpArgs false
set_option linter.unusedSectionVars false

namespace Braft.Cl
open Braft.Raft
open Braft.MemLog (Ent Consec)
open Braft.LogMgr (Sto Id number)
variable {N D : Type} [DecidableEq N] [DecidableEq D]

theorem drain_resolve (l : Log N D) (prev : Nat) (es : List (Entry N D)) (h : prev ≤ l.length) :
    drainJobs l (resolveJobs l prev es) =
      if matchLen (l.drop prev) es < es.length then
        l.take (prev + matchLen (l.drop prev) es) ++ es.drop (matchLen (l.drop prev) es) else l := by
  have hk := matchLen_le (l.drop prev) es
  rw [List.length_drop] at hk
  unfold resolveJobs
  dsimp only
  generalize matchLen (l.drop prev) es = k at hk ⊢
  by_cases h1 : k < es.length
  · rw [if_pos h1]
    by_cases h2 : prev + k < l.length
    · rw [if_pos ⟨h1, h2⟩, drainJobs_append, drain_pop, drain_push]
      rw [show l.length - (l.length - (prev + k)) = prev + k by omega]
    · rw [if_neg (by omega), List.nil_append, drain_push, List.take_of_length_le (by omega)]
  · rw [if_neg h1, if_neg (by omega), List.nil_append, List.drop_eq_nil_of_le (by omega)]
    rfl

theorem takeWhile_pops (m : Nat) (l : Log N D) (g : Job N D) (hg : isPop g = false) :
    (List.replicate m Job.pop ++ (l.map Job.push ++ [g])).takeWhile isPop = List.replicate m Job.pop ∧
    (List.replicate m Job.pop ++ (l.map Job.push ++ [g])).dropWhile isPop = l.map Job.push ++ [g] := by
  induction m with
  | zero =>
    cases l with
    | nil => simp [hg]
    | cons e l => simp [isPop]
  | succ m ih =>
    rw [List.replicate_succ, List.cons_append]
    constructor
    · rw [List.takeWhile_cons, if_pos (show isPop (Job.pop : Job N D) = true from rfl), ih.1]
    · rw [List.dropWhile_cons, if_pos (show isPop (Job.pop : Job N D) = true from rfl), ih.2]

theorem ents_drop' (k : Nat) (l : Log N D) {p : List (Ent (Payload N D))} {e : Ent (Payload N D)} {rest : List (Ent (Payload N D))}
    (h : ents k l = p ++ e :: rest) : p.length < l.length ∧ e :: rest = ents (k + p.length) (l.drop p.length) := by
  have h1 := congrArg List.length h
  rw [ents_length, List.length_append, List.length_cons] at h1
  refine ⟨by omega, ?_⟩
  rw [← ents_drop _ _ _ (by omega), h, List.drop_left]

/-- append_entries with entries of a request. -/
theorem Live.append {c c' : Srv N D} {x : LNode N D} (h : Live c x) (f : SF c) {n : Nat} (v : View c.log x.lm n)
    (prev : Nat) (es : Log N D) (cid : Nat) (g : Job N D) (hg : ∀ y : Log N D, applyJob y g = y) (hgp : isPop g = false)
    (hn : n ≤ prev) (hprev : prev ≤ c.log.length) (hne : es ≠ []) (hal : ¬ prev + es.length ≤ c.applied)
    (hpos : ∀ e ∈ es, 1 ≤ e.term)
    (hlog : c'.log = drainJobs c.log (resolveJobs c.log prev es)) (hd : c'.disk = c.disk)
    (hcq : c'.queue = c.queue ++ (resolveJobs c.log prev es ++ [g])) (hsn : c'.snap = c.snap) (ha : c'.applied = c.applied)
    (hta : c'.log.take c.applied = c.log.take c.applied) :
    Live c' ⟨x.lm.append (ents prev es) cid, x.z ++
      pairUp ((x.lm.append (ents prev es) cid).queue.drop x.lm.queue.length) (c'.queue.drop c.queue.length)⟩ := by
  have hap := f.ap
  have hsa := f.sa
  have hfst := h.fst
  have hvf := v.first
  have hvl := v.last
  have hai : x.lm.applied.index = c.applied := by rw [h.app]
  have hkl := matchLen_le (c.log.drop prev) es
  rw [List.length_drop] at hkl
  have hdr := drain_resolve c.log prev es hprev
  have hstop := fun a b => matchLen_stop (c.log.drop prev) es (a := a) (b := b)
  have hterm := matchLen_term (c.log.drop prev) es
  have hres : resolveJobs c.log prev es =
      (if matchLen (c.log.drop prev) es < es.length ∧ prev + matchLen (c.log.drop prev) es < c.log.length then
        List.replicate (c.log.length - (prev + matchLen (c.log.drop prev) es)) .pop else [])
      ++ (es.drop (matchLen (c.log.drop prev) es)).map .push := rfl
  generalize matchLen (c.log.drop prev) es = k at hkl hdr hstop hterm hres
  have hgt : ∀ j : Nat, x.lm.getTerm ((prev : Int) + j + 1) = termAt c.log (prev + j + 1) := by
    intro j
    rw [show (prev : Int) + j + 1 = ((prev + j + 1 : Nat) : Int) by omega]
    exact v.term (by omega)
  -- entries match up to `k`, and not there
  have hmatch : ∀ j e, j < k → es[j]? = some e → x.lm.getTerm ((prev : Int) + j + 1) = e.term := by
    intro j e hj he
    obtain ⟨a, b, h1, h2, h3⟩ := hterm j hj
    rw [he] at h2
    cases h2
    rw [hgt j]
    unfold termAt
    rw [if_neg (by omega), show prev + j + 1 - 1 = prev + j by omega]
    rw [List.getElem?_drop] at h1
    rw [h1]
    dsimp only
    omega
  have hdiff : ∀ e, es[k]? = some e → x.lm.getTerm ((prev : Int) + k + 1) ≠ e.term := by
    intro e he
    rw [hgt k]
    have hp := hpos e (List.mem_of_getElem? he)
    unfold termAt
    rw [if_neg (by omega), show prev + k + 1 - 1 = prev + k by omega]
    cases hl : c.log[prev + k]? with
    | none => dsimp only; omega
    | some a =>
      dsimp only
      have := hstop a e (by rw [List.getElem?_drop]; exact hl) he
      omega
  have hnc : ∀ e ∈ ents prev es, e.index ≤ x.lm.applied.index → x.lm.getTerm e.index = e.term := by
    intro e he hle
    obtain ⟨j, e', h1, rfl⟩ := ents_mem he
    rw [hai] at hle
    have hle' : (prev : Int) + j + 1 ≤ c.applied := hle
    show x.lm.getTerm ((prev : Int) + j + 1) = (e'.term : Int)
    by_cases hj : j < k
    · exact hmatch j e' hj h1
    · exfalso
      have hjl : j < es.length := (List.getElem?_eq_some_iff.mp h1).1
      have hkes : k < es.length := by omega
      have hb : es[k]? = some es[k] := List.getElem?_eq_getElem hkes
      have hlk : c.log[prev + k]? = some c.log[prev + k] := List.getElem?_eq_getElem (by omega)
      have hne' := hstop _ _ (by rw [List.getElem?_drop]; exact hlk) hb
      have h2 : (c'.log.take c.applied)[prev + k]? = (c.log.take c.applied)[prev + k]? := by rw [hta]
      rw [List.getElem?_take, List.getElem?_take, if_pos (by omega), if_pos (by omega), hlog, hdr, if_pos hkes, hlk,
        List.getElem?_append_right (by rw [List.length_take]; omega), List.length_take, List.getElem?_drop,
        show k + (prev + k - min (prev + k) c.log.length) = k by omega, hb] at h2
      exact hne' (by rw [Option.some.inj h2])
  obtain ⟨L', hi, hr⟩ := v.inv.append h.err (ents prev es) cid (ents_consec prev es)
    (by intro h0; have := congrArg List.length h0; rw [ents_length] at this; exact hne (List.length_eq_zero_iff.mp this))
    (ents_pos hpos) (fun _ _ => hnc)
  have htk : ∀ j, j ≤ c.applied → c'.log.take j = c.log.take j := by
    intro j hj
    have h1 : ∀ y : Log N D, y.take j = (y.take c.applied).take j := by
      intro y; rw [List.take_take, Nat.min_eq_left hj]
    rw [h1 c'.log, hta, ← h1 c.log]
  have htl : c.applied ≤ c'.log.length := by
    have := congrArg List.length hta
    rw [List.length_take, List.length_take] at this
    omega
  have htm : ∀ j, j ≤ c.applied → termAt c'.log j = termAt c.log j := by
    intro j hj
    rw [termAt_take (show j ≤ c'.log.length by omega), termAt_take (show j ≤ c.log.length by omega), htk j hj]
  have hbase0 : Base c'.log c'.snap c.log (finSto x c.log n) := by
    right
    have h1 : ((finSto x c.log n).first - 1).toNat = n := by
      show (x.lm.first - 1).toNat = n
      omega
    rw [h1, htk n (by omega)]
  have hvirt : ∀ m' : LM N D, m'.virt = x.lm.virt →
      ∀ j : Nat, m'.virt.index = j → j ≠ 0 → m'.virt.term = termAt c'.log j := by
    intro m' hm' j hj hj0
    rw [hm'] at hj ⊢
    have := v.virt_le hj hj0
    rw [h.virt j hj hj0, htm j (by omega)]
  have happ : (⟨c'.applied, termAt c'.log c'.applied⟩ : Id) = x.lm.applied := by
    rw [ha, htm _ (Nat.le_refl _), h.app]
  rw [hcq, List.drop_left]
  have hdrg : drainJobs c.log (resolveJobs c.log prev es ++ [g]) = c'.log := by
    rw [drainJobs_append, ← hlog]
    exact hg _
  cases hr with
  | gap fe hf hlt hs hn' =>
    exfalso
    have hfi : fe.index = (prev : Int) + 1 := by
      have h1 := (MemLog.consec_get _ _ (ents_consec prev es)) 0 fe (by rw [← List.head?_eq_getElem?]; exact hf)
      omega
    omega
  | known b hb hle hs hn' =>
    exfalso
    rw [List.getLast?_eq_getElem?] at hb
    have h1 := (MemLog.consec_get _ _ (ents_consec prev es)) _ b hb
    rw [ents_length] at h1
    have : 0 < es.length := List.length_pos_iff.mpr hne
    omega
  | allMatch hm hs hn' =>
    have hk : k = es.length := by
      apply Decidable.byContradiction
      intro hk
      have hb : es[k]? = some es[k] := List.getElem?_eq_getElem (by omega)
      have h1 : (ents prev es)[k]? = some ⟨(prev : Int) + k + 1, (es[k]).term, (es[k]).payload⟩ := by rw [ents_get, hb]; rfl
      exact hdiff _ hb (hm _ (List.mem_of_getElem? h1))
    have hrj : resolveJobs c.log prev es = [] := by
      rw [hres, if_neg (by omega), hk, List.drop_length]
      rfl
    rw [hs] at hi ⊢
    have hpu : pairUp ((x.lm.enqueue [] cid).queue.drop x.lm.queue.length) (resolveJobs c.log prev es ++ [g]) =
        [(some (.append (ents c.log.length []) cid), ([] : Log N D).map .push ++ [g])] := by
      rw [hrj]
      show pairUp (List.drop x.lm.queue.length (x.lm.queue ++ _)) _ = _
      rw [List.drop_left]
      rfl
    rw [hpu]
    refine h.push f v _ hi h.err rfl rfl hd ?_ ?_ ?_ ?_ ?_ ?_ ?_ ?_ ?_
    · rw [hcq, hrj]; simp [flat]
    · exact ⟨.append [] g cid hg, fun a' ha' => trivial⟩
    · refine ⟨hbase0, fun a' ha' => ?_⟩
      show Base _ _ (drainJobs c.log (([] : Log N D).map .push ++ [g])) a'
      rw [hrj] at hdrg
      rw [show ([] : Log N D).map Job.push ++ [g] = [] ++ [g] from rfl, hdrg]
      exact Or.inr rfl
    · exact htk _ hsa
    · rw [hsn]; exact Nat.le_refl _
    · rw [hsn]; exact h.snap
    · rw [happ]; rfl
    · exact hvirt _ rfl
    · rw [hsn]; exact h.fst
  | from_ p e rest hes hm hc hi1 hi2 b hs hn' =>
    obtain ⟨hpl, her⟩ := ents_drop' prev es hes
    have hei : e.index = (prev : Int) + p.length + 1 := by
      have h1 : (ents prev es)[p.length]? = some e := by rw [hes]; simp
      have := (MemLog.consec_get _ _ (ents_consec prev es)) _ e h1
      omega
    have hpk : p.length = k := by
      rcases Nat.lt_trichotomy p.length k with h1 | h1 | h1
      · exfalso
        have hb : es[p.length]? = some es[p.length] := List.getElem?_eq_getElem (by omega)
        have h2 := hmatch _ _ h1 hb
        have h3 : (ents prev es)[p.length]? = some ⟨(prev : Int) + p.length + 1, (es[p.length]).term, (es[p.length]).payload⟩ := by
          rw [ents_get, hb]; rfl
        rw [hes] at h3
        simp at h3
        rw [h3] at hc
        exact hc h2
      · exact h1
      · exfalso
        have hb : es[k]? = some es[k] := List.getElem?_eq_getElem (by omega)
        have h3 : (ents prev es)[k]? = some ⟨(prev : Int) + k + 1, (es[k]).term, (es[k]).payload⟩ := by
          rw [ents_get, hb]; rfl
        rw [hes, List.getElem?_append_left (by omega)] at h3
        exact hdiff _ hb (hm _ (List.mem_of_getElem? h3))
    rw [hpk] at hei hpl her
    rw [if_pos hpl] at hdr
    by_cases hlt : e.index ≤ x.lm.last
    · -- a conflict: truncate first
      rw [if_pos hlt] at hs
      have hts : x.lm.truncateSuffix (e.index - 1) =
          ({ x.lm with mem := MemLog.popBack (e.index - 1) x.lm.mem, last := e.index - 1, queue := x.lm.queue ++ [LogMgr.Job.truncSuffix (e.index - 1) (({ x.lm with mem := MemLog.popBack (e.index - 1) x.lm.mem, last := e.index - 1 } : LM N D).getTerm (e.index - 1))] } : LM N D) := by
        unfold LogMgr.State.truncateSuffix
        rw [if_neg (by omega)]
      generalize (({ x.lm with mem := MemLog.popBack (e.index - 1) x.lm.mem, last := e.index - 1 } : LM N D).getTerm (e.index - 1)) = t at hts
      rw [hts] at hs
      have hpk2 : prev + k < c.log.length := by omega
      have hrj : resolveJobs c.log prev es ++ [g] =
          List.replicate (c.log.length - (prev + k)) .pop ++ ((es.drop k).map .push ++ [g]) := by
        rw [hres, if_pos ⟨hpl, hpk2⟩, List.append_assoc]
      have hq' : (x.lm.append (ents prev es) cid).queue = x.lm.queue ++
          [.truncSuffix ((prev + k : Nat) : Int) t, .append (ents (prev + k) (es.drop k)) cid] := by
        rw [hs]
        show (x.lm.queue ++ [_]) ++ [_] = _
        rw [her, List.append_assoc, show e.index - 1 = ((prev + k : Nat) : Int) by omega]
        rfl
      have hpu : pairUp ((x.lm.append (ents prev es) cid).queue.drop x.lm.queue.length) (resolveJobs c.log prev es ++ [g]) =
          [(some (.truncSuffix ((prev + k : Nat) : Int) t), List.replicate (c.log.length - (prev + k)) .pop),
           (some (.append (ents (prev + k) (es.drop k)) cid), (es.drop k).map .push ++ [g])] := by
        rw [hq', List.drop_left, hrj]
        unfold pairUp
        rw [(takeWhile_pops _ _ g hgp).1, (takeWhile_pops _ _ g hgp).2]
        rfl
      rw [hpu]
      have hpl2 : drainJobs c.log (List.replicate (c.log.length - (prev + k)) .pop) = c.log.take (prev + k) := by
        rw [drain_pop]
        congr 1
        omega
      have hlen2 : (c.log.take (prev + k)).length = prev + k := by rw [List.length_take]; omega
      refine h.push f v _ hi ?_ ?_ ?_ hd ?_ ?_ ?_ ?_ ?_ ?_ ?_ ?_ ?_
      · rw [hs]; exact h.err
      · rw [hs]; rfl
      · rw [hq']; rfl
      · rw [hcq, hrj]; simp [flat]
      · refine ⟨.suffix (prev + k) t (by show x.lm.first ≤ _; omega) (by omega), fun a' ha' => ⟨?_, fun a'' ha'' => trivial⟩⟩
        show Block (drainJobs c.log (List.replicate (c.log.length - (prev + k)) .pop)) a' _
        rw [hpl2]
        have := Block.append (d := c.log.take (prev + k)) (a := a') (es.drop k) g cid hg
        rwa [hlen2] at this
      · refine ⟨hbase0, fun a' ha' => ⟨?_, fun a'' ha'' => ?_⟩⟩
        · show Base _ _ (drainJobs c.log (List.replicate (c.log.length - (prev + k)) .pop)) a'
          rw [hpl2]
          right
          have haf : a'.first = x.lm.first := by
            simp only [runB, Sto.run] at ha'
            split at ha'
            · cases ha'; rfl
            · cases ha'
          have h1 : (a'.first - 1).toNat = n := by omega
          rw [h1, htk n (by omega), List.take_take, Nat.min_eq_left (by omega)]
        · show Base _ _ (drainJobs (drainJobs c.log (List.replicate (c.log.length - (prev + k)) .pop)) ((es.drop k).map .push ++ [g])) a''
          rw [← drainJobs_append, ← hrj, hdrg]
          exact Or.inr rfl
      · exact htk _ hsa
      · rw [hsn]; exact Nat.le_refl _
      · rw [hsn, hs]; exact h.snap
      · rw [happ, hs]; rfl
      · exact hvirt _ (by rw [hs]; rfl)
      · rw [hsn, hs]; exact h.fst
    · rw [if_neg hlt] at hs
      have hpk2 : prev + k = c.log.length := by omega
      have hrj : resolveJobs c.log prev es ++ [g] = (es.drop k).map .push ++ [g] := by
        rw [hres, if_neg (by omega), List.nil_append]
      have hq' : (x.lm.append (ents prev es) cid).queue = x.lm.queue ++
          [.append (ents c.log.length (es.drop k)) cid] := by
        rw [hs]
        show x.lm.queue ++ [_] = _
        rw [her, hpk2]
      have hpu : pairUp ((x.lm.append (ents prev es) cid).queue.drop x.lm.queue.length) (resolveJobs c.log prev es ++ [g]) =
          [(some (.append (ents c.log.length (es.drop k)) cid), (es.drop k).map .push ++ [g])] := by
        rw [hq', List.drop_left, hrj]
        rfl
      rw [hpu]
      refine h.push f v _ hi ?_ ?_ ?_ hd ?_ ?_ ?_ ?_ ?_ ?_ ?_ ?_ ?_
      · rw [hs]; exact h.err
      · rw [hs]; rfl
      · rw [hq']; rfl
      · rw [hcq, hrj]; simp [flat]
      · exact ⟨.append (es.drop k) g cid hg, fun a' ha' => trivial⟩
      · refine ⟨hbase0, fun a' ha' => ?_⟩
        show Base _ _ (drainJobs c.log ((es.drop k).map .push ++ [g])) a'
        rw [← hrj, hdrg]
        exact Or.inr rfl
      · exact htk _ hsa
      · rw [hsn]; exact Nat.le_refl _
      · rw [hsn, hs]; exact h.snap
      · rw [happ, hs]; rfl
      · exact hvirt _ (by rw [hs]; rfl)
      · rw [hsn, hs]; exact h.fst

/-- append_entries when everything in the request is applied: the closure runs at once. -/
theorem Live.known {c c' : Srv N D} {x : LNode N D} (h : Live c x) (f : SF c) {n : Nat} (v : View c.log x.lm n)
    (prev : Nat) (es : Log N D) (cid : Nat) (hprev : prev ≤ c.log.length) (hne : es ≠ []) (hal : prev + es.length ≤ c.applied)
    (hlog : c'.log = c.log) (hd : c'.disk = c.disk) (hcq : c'.queue = c.queue) (hsn : c'.snap = c.snap)
    (ha : c'.applied = c.applied) :
    Live c' ⟨x.lm.append (ents prev es) cid, x.z ++
      pairUp ((x.lm.append (ents prev es) cid).queue.drop x.lm.queue.length) (c'.queue.drop c.queue.length)⟩ := by
  have hai : x.lm.applied.index = c.applied := by rw [h.app]
  have hvl := v.last
  obtain ⟨e, es', rfl⟩ : ∃ e es', es = e :: es' := by
    cases es with
    | nil => exact absurd rfl hne
    | cons e es' => exact ⟨e, es', rfl⟩
  have hh : (ents prev (e :: es')).head? = some ⟨(prev : Int) + 1, e.term, e.payload⟩ := by rw [ents_cons]; rfl
  obtain ⟨b, hb⟩ : ∃ b, (ents prev (e :: es')).getLast? = some b := by
    rw [ents_cons]; exact ⟨_, List.getLast?_eq_some_getLast (by simp)⟩
  have hbi : b.index = (prev : Int) + (e :: es').length := by
    have hb' := hb
    rw [List.getLast?_eq_getElem?] at hb'
    have h1 := (MemLog.consec_get _ _ (ents_consec prev (e :: es'))) _ b hb'
    rw [ents_length] at h1
    have : 0 < (e :: es').length := by simp
    omega
  have heq : x.lm.append (ents prev (e :: es')) cid = { x.lm with ran := x.lm.ran ++ [(cid, true)] } := by
    unfold LogMgr.State.append
    rw [if_neg (by rw [h.err]; simp), hh, hb]
    dsimp only
    unfold LogMgr.State.check
    rw [if_neg (by omega), if_pos (by omega)]
  rw [heq, hcq, List.drop_length]
  dsimp only
  rw [List.drop_length, pairUp_nil_nil, List.append_nil]
  have h' := h.frame hlog hd hcq hsn ha
  obtain ⟨L, hL⟩ := h'.inv
  exact ⟨h'.err, ⟨L, hL.congr rfl rfl rfl rfl rfl rfl rfl rfl⟩, h'.cq, h'.sq, h'.st, h'.zok, h'.snap, h'.app, h'.virt, h'.fst, h'.bs⟩

end Braft.Cl
