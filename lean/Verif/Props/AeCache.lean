import Verif.Node.AeCacheInv

/-
C29: the cache of out-of-order AppendEntries requests. `Hist max` ranges over all histories of requests, step-downs
and timer callbacks, with all results of the timer calls; `max` is raft_max_append_entries_cache_size (positive, as
its validator demands).
-/
set_option linter.unusedVariables false

namespace Braft.AeCache.Props

open Braft.AeCache

/-- The requests that are parked. -/
def parked (s : State) : List Rpc := match s.cache with | some c => c.map | none => []

/-- The requests handed over so far, in order. -/
def handed (s : State) : List Rpc := s.env.out.flatten

/-- Every request that was ever parked is, at every moment, either still parked or has been handed over, and not
both and not twice. -/
theorem cache_each_once {max : Nat} (hmax : 0 < max) {s : State} (h : Hist max s) :
    (parked s ++ handed s).Perm s.stored ∧ (s.stored.map (·.id)) = List.range s.stored.length := by
  have inv := h.inv hmax
  refine ⟨?_, inv.einv.ids⟩
  unfold parked handed
  cases hs : s.cache with
  | none => exact inv.none hs
  | some c =>
    have hc := (inv.some c hs).1
    exact (hc.perm.symm.append_right _).trans hc.cons

/-- A request that comes out of the cache is answered or appended, never parked again; and a request is parked only
if it has entries and its prev_log_index lies beyond the local log. -/
theorem cache_parks_only {max : Nat} (s : State) (fromCache fits : Bool) (last prev : Int) (n : Nat) (recv : Int)
    (ok del : Bool) (h : (s.request max fromCache fits last prev n recv ok del).2 = .cached) :
    fromCache = false ∧ fits = false ∧ last < prev ∧ 0 < n := by
  unfold State.request at h
  cases fits with
  | true =>
    rw [if_neg (by decide)] at h
    split at h <;> cases h
  | false =>
    rw [if_pos (by decide)] at h
    split at h
    · rename_i hc
      rw [Bool.and_eq_true] at hc
      obtain ⟨h1, h2⟩ := hc
      refine ⟨by simpa using h1, rfl, ?_⟩
      unfold State.outOfOrder at h2
      by_cases hx : last ≥ prev ∨ n = 0
      · rw [if_pos hx] at h2; cases h2
      · omega
    · cases h

/-- The cache never exceeds its configured size, and parked requests are kept in index order without overlap. -/
theorem cache_bounded_ordered {max : Nat} (hmax : 0 < max) {s : State} (h : Hist max s) :
    (parked s).length ≤ max ∧ (parked s).Pairwise (fun a b => a.prev + (a.n : Int) ≤ b.prev) ∧ ∀ r ∈ parked s, 0 < r.n := by
  have inv := h.inv hmax
  unfold parked
  cases hs : s.cache with
  | none => exact ⟨Nat.zero_le _, .nil, fun _ h => by cases h⟩
  | some c =>
    have hc := (inv.some c hs).1
    exact ⟨hc.size, hc.sorted.pw, hc.sorted.pos⟩

theorem needClear_false {m : List Rpc} {r : Rpc} (h : Sorted m)
    (hno : ∀ x ∈ m, x.prev + (x.n : Int) ≤ r.prev ∨ r.prev + (r.n : Int) ≤ x.prev) : needClear m r = false := by
  unfold needClear
  rw [Bool.or_eq_false_iff]
  constructor
  · cases hp : (m.takeWhile (fun x => decide (x.prev < r.prev))).getLast? with
    | none => rfl
    | some p =>
      have hm := List.mem_of_getLast? hp
      have h1 := takeWhile_lt hm
      have h2 := hno p (List.takeWhile_subset _ hm)
      show decide (p.prev + (p.n : Int) > r.prev) = false
      rw [decide_eq_false_iff_not]; omega
  · cases hq : (m.dropWhile (fun x => decide (x.prev < r.prev))).head? with
    | none => rfl
    | some q =>
      have hm := List.mem_of_mem_head? hq
      have h1 := dropWhile_ge h.prevLt hm
      have hmm := (List.dropWhile_suffix _).subset hm
      have h2 := hno q hmm
      have h3 := h.pos q hmm
      show decide (q.prev < r.prev + (r.n : Int)) = false
      rw [decide_eq_false_iff_not]; omega

/-- A request that overlaps no parked one (it may touch them) is parked without handing over any other, if the cache
is not full and the timer can be armed. -/
theorem cache_parks_quietly {max : Nat} (hmax : 0 < max) {s : State} (h : Hist max s) (last prev : Int) (n : Nat)
    (recv : Int) (del : Bool) (hl : last < prev) (hn : 0 < n)
    (hno : ∀ x ∈ parked s, x.prev + (x.n : Int) ≤ prev ∨ prev + (n : Int) ≤ x.prev) (hfull : (parked s).length < max) :
    let s' := (s.request max false false last prev n recv true del).1
    handed s' = handed s ∧ (parked s').Perm (⟨s.stored.length, prev, n, recv⟩ :: parked s) := by
  have inv := h.inv hmax
  have hsort : Sorted (parked s) := by
    obtain ⟨_, h2, h3⟩ := cache_bounded_ordered hmax h
    exact ⟨h2, h3⟩
  have key : ∀ (c : Cache) (e : Env), c.map = parked s → c.queue.Perm c.map →
      (store max c e ⟨s.stored.length, prev, n, recv⟩ true del).2.out = e.out ∧
      (store max c e ⟨s.stored.length, prev, n, recv⟩ true del).1.map.Perm (⟨s.stored.length, prev, n, recv⟩ :: parked s) := by
    intro c e hc hq
    have hnc : needClear c.map ⟨s.stored.length, prev, n, recv⟩ = false := by
      rw [hc]; exact needClear_false hsort hno
    have hp := insert_perm (insert_sorted (r := ⟨s.stored.length, prev, n, recv⟩) (by rw [hc]; exact hsort) hnc hn).2
    have hlen := hp.length_eq
    rw [List.length_cons] at hlen
    have hev : ∀ (c' : Cache) (e' : Env), c'.map.length ≤ max → evict max c' e' = (c', e') := by
      intro c' e' h'; unfold evict; rw [if_neg (by omega)]
    have hle : (insert c.map ⟨s.stored.length, prev, n, recv⟩).length ≤ max := by rw [hlen, hc]; omega
    unfold store
    rw [hnc, if_neg (show ¬ (false = true) by decide)]
    dsimp only
    split
    · cases hh : (c.queue ++ [(⟨s.stored.length, prev, n, recv⟩ : Rpc)]).head? with
      | none => simp at hh
      | some x =>
        obtain ⟨s1, s2, s3, s4, s5, s6, _⟩ := startTimer_spec
          ({ c with queue := c.queue ++ [⟨s.stored.length, prev, n, recv⟩], map := insert c.map ⟨s.stored.length, prev, n, recv⟩ } : Cache) e true x hh
        rw [if_pos s1, hev _ _ (by rw [s2]; exact hle)]
        refine ⟨s6, ?_⟩
        rw [s2, ← hc]; exact hp
    · rw [hev _ _ hle]
      refine ⟨rfl, ?_⟩
      rw [← hc]; exact hp
  have hc : ¬ (last ≥ prev ∨ n = 0) := by omega
  unfold State.request State.outOfOrder
  rw [if_neg hc]
  dsimp only
  rw [if_pos (show (!false) = true by decide), if_pos (show (!false && true) = true by decide)]
  cases hs : s.cache with
  | none =>
    obtain ⟨k1, k2⟩ := key (Cache.new (s.ver + 1)) s.env (by unfold parked; rw [hs]; rfl) (.refl _)
    refine ⟨?_, ?_⟩
    · unfold handed; dsimp only [Option.getD]; rw [k1]
    · exact k2
  | some c =>
    obtain ⟨k1, k2⟩ := key c s.env (by unfold parked; rw [hs]) (inv.some c hs).1.perm
    refine ⟨?_, ?_⟩
    · unfold handed; dsimp only [Option.getD]; rw [k1]
    · exact k2

/-- Two requests that touch are both kept. -/
example :
    let s1 := (State.init.request 8 false false 5 10 2 100 true true).1
    let s2 := (s1.request 8 false false 5 12 3 101 true true).1
    (parked s2).map (·.prev) = [10, 12] ∧ handed s2 = [] := by decide

/-- `b` continues the log that ends at `L` and is itself without gaps. -/
def Continues : Int → List Rpc → Prop
  | _, [] => True
  | L, r :: rs => r.prev = L ∧ Continues (r.prev + r.n) rs

theorem runable_chain : ∀ (m : List Rpc) (L : Int), Sorted m → (∀ r ∈ m, L ≤ r.prev) →
    Continues L (runable L m).1 ∧
    (∀ r ∈ (runable L m).2, ((runable L m).1.getLast?.map Rpc.last).getD L < r.prev)
  | [], L, _, _ => ⟨trivial, fun _ h => by cases h⟩
  | r :: m, L, hs, hge => by
    unfold runable
    by_cases h : r.prev > L
    · rw [if_pos h]
      refine ⟨trivial, ?_⟩
      intro x hx
      show L < x.prev
      rcases List.mem_cons.mp hx with rfl | hx
      · exact h
      · have := (List.pairwise_cons.mp hs.prevLt).1 x hx; omega
    · rw [if_neg h]
      have hr := hge r List.mem_cons_self
      have hsm : Sorted m := hs.sub (List.sublist_cons_self _ _)
      obtain ⟨i1, i2⟩ := runable_chain m (r.prev + r.n) hsm (fun x hx => (List.pairwise_cons.mp hs.pw).1 x hx)
      refine ⟨⟨by omega, i1⟩, ?_⟩
      intro x hx
      have := i2 x hx
      show ((r :: (runable (r.prev + r.n) m).1).getLast?.map Rpc.last).getD L < x.prev
      cases hl : (runable (r.prev + r.n) m).1 with
      | nil => rw [hl] at this; exact this
      | cons y ys =>
        rw [hl] at this
        rw [List.getLast?_cons_cons]
        rw [List.getLast?_eq_some_getLast (by simp)] at this ⊢
        exact this

/-- When a request that ends at index `prev + n` is appended and every parked request starts at or behind that
index, the requests that continue it without a gap are handed over together, in index order, and exactly these:
every request that stays parked starts beyond the end of those handed over. -/
theorem cache_hands_over_in_order {max : Nat} (hmax : 0 < max) {s : State} (h : Hist max s) (ha : s.aborted = false)
    (fromCache : Bool) (last prev : Int) (n : Nat) (hn : 0 < n) (recv : Int) (ok del : Bool) (hp : parked s ≠ [])
    (hbeyond : ∀ r ∈ parked s, prev + n ≤ r.prev) :
    ∃ b, handed (s.request max fromCache true last prev n recv ok del).1 = handed s ++ b ∧
      parked s = b ++ parked (s.request max fromCache true last prev n recv ok del).1 ∧
      Continues (prev + n) b ∧
      ∀ r ∈ parked (s.request max fromCache true last prev n recv ok del).1,
        (b.getLast?.map Rpc.last).getD (prev + n) < r.prev := by
  have inv := h.inv hmax
  unfold State.request
  rw [if_neg (by decide), if_neg (by omega)]
  unfold parked at hp hbeyond
  cases hs : s.cache with
  | none => rw [hs] at hp; exact absurd rfl hp
  | some c =>
    rw [hs] at hp hbeyond
    have hc := (inv.some c hs).1
    obtain ⟨p1, p2, p3, p4, p5⟩ := process_spec hc inv.einv (prev + n) del
    obtain ⟨c1, c2⟩ := runable_chain c.map (prev + n) hc.sorted hbeyond
    have hap := runable_append (prev + n) c.map
    have hm : c.map.isEmpty = false := by
      cases hcm : c.map with
      | nil => exact absurd hcm hp
      | cons _ _ => rfl
    have hpk : parked (s.check (prev + n) del) = (runable (prev + n) c.map).2 := by
      unfold parked State.check
      rw [hs]
      dsimp only
      rw [if_neg (by rw [hm]; decide)]
      dsimp only [AeCache.dropEmpty]
      rw [← p3]
      cases hB : (process c s.env (prev + n) del).1.map.isEmpty with
      | true => rw [if_pos rfl]; exact (List.isEmpty_iff.mp hB).symm
      | false => rw [if_neg (by decide)]
    have hout : handed (s.check (prev + n) del) = handed s ++ (runable (prev + n) c.map).1 := by
      unfold handed State.check
      rw [hs]
      dsimp only
      rw [if_neg (by rw [hm]; decide)]
      dsimp only
      rw [p5]
      cases hA : (runable (prev + n) c.map).1.isEmpty with
      | true => rw [if_pos rfl, List.isEmpty_iff.mp hA]; simp
      | false => rw [if_neg (by decide)]; simp
    refine ⟨(runable (prev + n) c.map).1, hout, ?_, c1, ?_⟩
    · show parked s = _ ++ parked (s.check (prev + n) del)
      rw [hpk, hap]; unfold parked; rw [hs]
    · show ∀ r ∈ parked (s.check (prev + n) del), _
      rw [hpk]; exact c2

/-- While a request is parked, a timer is armed whose callback will find it. -/
theorem cache_timer_armed {max : Nat} (hmax : 0 < max) {s : State} (h : Hist max s) (hp : parked s ≠ []) :
    ∃ c t, s.cache = some c ∧ t ∈ s.env.timers ∧ t.cacheVer = c.ver ∧ t.timerVer = c.timerVer := by
  have inv := h.inv hmax
  unfold parked at hp
  cases hs : s.cache with
  | none => rw [hs] at hp; exact absurd rfl hp
  | some c =>
    rw [hs] at hp
    obtain ⟨t, ht, h1, h2⟩ := (inv.some c hs).1.live hp
    exact ⟨c, t, rfl, ht, h1, h2⟩

/-- When that callback has run, the request that was the oldest one when the timer was armed is not parked any more.
Requests are parked in the order of arrival, so a request with k older ones waits for at most k + 1 timers. -/
theorem cache_timer_hands_over {max : Nat} (hmax : 0 < max) {s : State} (h : Hist max s) (c : Cache) (t : Timer)
    (hs : s.cache = some c) (ht : t ∈ s.env.timers) (hv : t.cacheVer = c.ver ∧ t.timerVer = c.timerVer)
    (hp : parked s ≠ []) (ok del : Bool) :
    ∀ r ∈ parked (s.fire t ok del), r.id ≠ t.head := by
  have inv := h.inv hmax
  have hc := (inv.some c hs).1
  have hne : c.map ≠ [] := by unfold parked at hp; rw [hs] at hp; exact hp
  have hm : c.map.isEmpty = false := by
    cases hcm : c.map with
    | nil => exact absurd hcm hne
    | cons _ _ => rfl
  have heF : EInv { s.env with timers := s.env.timers.filter (fun x => decide (x.id ≠ t.id)) } s.stored :=
    inv.einv.filter _ _
  have hwk : CInv' max c { s.env with timers := s.env.timers.filter (fun x => decide (x.id ≠ t.id)) } s.stored :=
    ⟨hc.sorted, hc.perm, hc.size, hc.cons, fun x hx => hc.head x (List.mem_filter.mp hx).1⟩
  obtain ⟨p1, p2, p3, p4⟩ := timedout_spec hwk heF hne t.start ok del
  intro r hr
  unfold parked State.fire at hr
  dsimp only at hr
  rw [hs] at hr
  dsimp only at hr
  rw [if_neg (by rw [hv.1]; exact fun h => h rfl), if_neg (by rw [hv.2]; exact fun h => h rfl),
    if_neg (by rw [hm]; decide)] at hr
  dsimp only at hr
  generalize timedout c { s.env with timers := s.env.timers.filter (fun x => decide (x.id ≠ t.id)) } t.start ok del = X at *
  unfold AeCache.dropEmpty at hr
  have hrq : r ∈ X.1.queue := by
    cases hB : X.1.map.isEmpty with
    | true => rw [hB, if_pos rfl] at hr; cases hr
    | false => rw [hB, if_neg (by decide)] at hr; exact p1.perm.mem_iff.mpr hr
  rcases p4 with hq | ⟨hq, x, hx, hlt⟩
  · rw [hq] at hrq; cases hrq
  · rw [hq] at hrq
    intro hid
    obtain ⟨g1, g2⟩ := hc.head t ht r hrq hid
    rw [hx] at g1
    cases g1
    omega

/-- Unless bthread_timer_add fails, no CHECK of the cache can fail. -/
theorem cache_no_abort {max : Nat} (hmax : 0 < max) {s : State} (h : Hist max s) (hf : s.env.failed = false) :
    s.aborted = false := by
  cases ha : s.aborted with
  | false => rfl
  | true => have := (h.inv hmax).abort ha; rw [hf] at this; cases this

/-! ### Concrete histories -/

/-- Requests 11-13, 7-10 and 21-22 arrive while the log ends at 5; then 6 arrives. -/
def demo : State :=
  let s1 := (State.init.request 8 false false 5 10 3 100 true true).1
  let s2 := (s1.request 8 false false 5 6 4 101 true true).1
  let s3 := (s2.request 8 false false 5 20 2 102 true true).1
  (s3.request 8 false true 5 5 1 103 true true).1

example : Hist 8 demo :=
  .request (.request (.request (.request .init rfl _ _ _ _ _ _ _ _) rfl _ _ _ _ _ _ _ _) rfl _ _ _ _ _ _ _ _) rfl _ _ _ _ _ _ _ _

/-- 7-10 and 11-13 are handed over, in this order; 21-22 stays. -/
example : (handed demo).map (fun r => (r.prev, r.n)) = [(6, 4), (10, 3)] ∧
    (parked demo).map (fun r => (r.prev, r.n)) = [(20, 2)] := by decide

/-- The timer of `demo` was armed for the first request, which is gone; its callback arms the next one. -/
example : (demo.fire ⟨0, 0, 1, 100, 0⟩ true true).env.timers.map (·.head) = [2] ∧
    parked (demo.fire ⟨0, 0, 1, 100, 0⟩ true true) ≠ [] := by decide

/-- The third of three requests in a cache of size 2. -/
example : (let s1 := (State.init.request 2 false false 5 10 3 100 true true).1
    let s2 := (s1.request 2 false false 5 6 4 101 true true).1
    let s3 := (s2.request 2 false false 5 20 2 102 true true).1
    ((parked s3).map (·.prev), (handed s3).map (·.prev))) = ([6, 10], [20]) := by decide

/-- What does not hold: after bthread_timer_add failed, the empty cache object is kept, and the next request that
fits runs into `CHECK(!_rpc_map.empty())` (node.cpp:3056-3061, 2928, 3082). -/
theorem cache_timer_failure_aborts :
    let s1 := (State.init.request 8 false false 5 10 3 100 false true).1
    Hist 8 (s1.request 8 false true 5 5 1 101 true true).1 ∧
      (s1.request 8 false true 5 5 1 101 true true).1.aborted = true :=
  ⟨.request (.request .init rfl _ _ _ _ _ _ _ _) rfl _ _ _ _ _ _ _ _, by decide⟩

/-- What does not hold: the callback of a timer of an earlier cache object can act on the present one, because every
cache object has version 0 (node.h:412-414). Here a timer that could not be deleted (its callback was starting)
makes the second cache hand over its request although that request's own timer is not due. -/
theorem cache_version_not_distinct :
    let s1 := (State.init.request 8 false false 5 10 3 100 true true).1
    let s2 := s1.clearAll false
    let s3 := (s2.request 8 false false 5 10 3 100 true true).1
    ∃ t0 t1, s1.env.timers = [t0] ∧ t1 ∈ s3.env.timers ∧ t0 ∈ s3.env.timers ∧ t1 ≠ t0 ∧ s3.ver = 2 ∧
      parked s3 ≠ [] ∧ parked (s3.fire t0 true true) = [] :=
  ⟨⟨0, 0, 1, 100, 0⟩, ⟨1, 0, 1, 100, 1⟩, by decide, by decide, by decide, by decide, by decide, by decide, by decide⟩

end Braft.AeCache.Props
