import Verif.Repl.ReplicatorRun
/-!
C41, C43 and part of C56: what a leader believes about one peer, in every run of the replicator: any log, any answers in any
order, any flags, any waiters, timers and snapshots. `Run T w false`: the peer does not leave readonly mode; `Run T w true`:
it may.
-/
set_option linter.unusedSectionVars false
set_option linter.unusedSimpArgs false
set_option linter.unusedVariables false

namespace Braft.Props
open Braft.Repl

/-- The peer has acknowledged index `k` in the term of the leader: it answered success to an AppendEntries request that
ends at `k` or later, or to a snapshot that contains `k`. -/
def PeerHas (s : State) (k : Nat) : Prop := k = 0 ∨ (∃ q ∈ s.acks, k ≤ q.prev + q.n) ∨ (∃ i ∈ s.snaps, k ≤ i)

/-- C41: the ballot box is told that the peer has the entries `a` to `b` only after the peer has answered success, in the
term of the leader, to an AppendEntries request with entries that ends at `b`; the entries exist. -/
theorem C41_counted {T : Nat} {w : Bool} {s : State} (h : Run T w false s) (p : Nat × Nat) (hp : p ∈ s.counted) :
    p.1 ≤ p.2 ∧ p.2 ≤ s.last ∧ ∃ q ∈ s.acks, 0 < q.n ∧ p.2 = q.prev + q.n := h.inv.cnt p hp

/-- C41: also when readonly mode is switched off. -/
theorem C41_counted_any {T : Nat} {w ro : Bool} {s : State} (h : Run T w ro s) (p : Nat × Nat) (hp : p ∈ s.counted) (i : Nat) (hi : i ≤ p.2) :
    ∃ q ∈ s.acks, 0 < q.n ∧ i ≤ q.prev + q.n := by
  obtain ⟨q, hq, h1, h2⟩ := h.once.cnt p hp
  exact ⟨q, hq, h1, by omega⟩

/-- C41: the answer to a request that is no longer in flight changes nothing: it is noted that the peer has answered. -/
theorem C41_stale (T : Nat) (w : Bool) (s : State) (q : Req) (r : Resp) (e : Env) (hm : 0 < s.min) (hc : ∀ f ∈ s.fly, f.call ≠ q.call) :
    s.returned T w q r e = { s with out := s.out.erase q, acks := r.acks T q s.acks } := by
  have hv : valid s.fly (q.prev + 1) q.call = false := by
    cases hv : valid s.fly (q.prev + 1) q.call with
    | false => rfl
    | true => obtain ⟨f, hf, h1, _⟩ := valid_mem hv; exact absurd h1 (hc f hf)
  unfold State.returned
  dsimp only
  have hm' : ({ s with out := s.out.erase q, acks := r.acks T q s.acks } : State).min = s.min := rfl
  rw [hm']
  split
  · rfl
  · rw [hv]; simp [hm]

/-- C41: the next index to send and the smallest index in flight stay between 1 and the index after the last one. -/
theorem C41_next_index {T : Nat} {w : Bool} {s : State} (h : Run T w false s) :
    0 < s.next ∧ s.next ≤ s.last + 1 ∧ 0 < s.min ∧ s.min ≤ s.next := by
  have := h.inv.min0; have := h.inv.next1; have := State.min_eq h.inv
  omega

/-- C41: the requests in flight hold the entries from the smallest index in flight to the next index, without a gap and
without an overlap, and none beyond the log. -/
theorem C41_in_flight {T : Nat} {w : Bool} {s : State} (h : Run T w false s) :
    Chain s.min s.fly s.next ∧ ∀ f ∈ s.fly, f.first + f.size ≤ s.last + 1 := ⟨h.inv.chain, h.inv.flyend⟩

/-- C41: what the peer is taken to have grows only when it is counted or has installed a snapshot. -/
theorem C41_advance {T : Nat} {w : Bool} {s t : State} (h : Run T w false s) (hs : Step T w false s t) (hlt : s.min < t.min) :
    (s.min, t.min - 1) ∈ t.counted ∨ t.min - 1 ∈ t.snaps := by
  have hi := h.inv
  cases hs with
  | returned q r e hq =>
    unfold State.returned at hlt ⊢
    dsimp only at hlt ⊢
    split
    · rename_i hal; rw [if_pos hal] at hlt; exact absurd hlt (Nat.lt_irrefl _)
    · rename_i hal; rw [if_neg hal] at hlt
      split
      · rename_i hv; rw [if_pos hv] at hlt; exact absurd hlt (Nat.lt_irrefl _)
      · rename_i hv; rw [if_neg hv] at hlt
        have hv : valid s.fly (q.prev + 1) q.call = true := by simpa using hv
        obtain ⟨f, hf, hc, hle⟩ := valid_mem hv
        obtain ⟨hq1, hq2⟩ := hi.req f hf q hq hc.symm
        obtain ⟨p1, p2, p3, _, _⟩ := hi.pops hf
        have hsum := p1.sum
        have hmn := State.min_eq hi
        generalize hu : ({ s with out := s.out.erase q, acks := r.acks T q s.acks, bad := s.bad || !(decide (0 < ({ s with out := s.out.erase q, acks := r.acks T q s.acks } : State).min)) } : State) = u at hlt ⊢
        have hum : u.min = s.min := by subst hu; rfl
        have hun : u.next = s.next ∧ u.flying = s.flying ∧ u.fly = s.fly := by subst hu; exact ⟨rfl, rfl, rfl⟩
        cases r with
        | failed =>
          have : u.reset.block.min = u.min := ((frame_reset u).trans (frame_block _)).min
          dsimp only at hlt; omega
        | resp b t l =>
          cases b with
          | false =>
            dsimp only at hlt
            by_cases ht : T < t
            · rw [if_pos ht] at hlt
              obtain ⟨c, x, e2⟩ := notifyErr_eq u.reset .perm
              rw [e2] at hlt
              have h1 : u.reset.min = u.min := (frame_reset u).min
              have h2 : s.min < u.reset.min := hlt
              omega
            · rw [if_neg ht] at hlt
              have h1 := (frame_sendEmpty (u.backoff l) w e.io).min
              have h2 : (u.backoff l).min ≤ u.min := by
                unfold State.backoff; dsimp only
                have h3 : u.reset.next = u.min := by simp [State.reset, State.min]
                have h4 : u.reset.flying = 0 := rfl
                split
                · rename_i hx; show l + 1 - u.reset.flying ≤ _; omega
                · split
                  · show u.reset.next - 1 - u.reset.flying ≤ _; omega
                  · exact Nat.le_of_eq (frame_reset u).min
              omega
          | true =>
            dsimp only at hlt ⊢
            by_cases ht : t ≠ T
            · rw [if_pos ht] at hlt
              have h1 : u.reset.min = u.min := (frame_reset u).min
              omega
            · rw [if_neg ht] at hlt ⊢
              have f1 := frame_sendEntries (u.succeeded q e.timerRuns) w e
              rw [f1.min] at hlt ⊢
              rw [f1.counted]
              have hmin : (u.succeeded q e.timerRuns).min = (u.poppedTo q).min := by
                rw [succeeded_eq, (fire_frame _).1]
                obtain ⟨c, x, e3⟩ := notifyOk_eq (u.poppedTo q) e.timerRuns
                rw [e3]; rfl
              have hcnt : (u.succeeded q e.timerRuns).counted = (u.poppedTo q).counted := by
                rw [succeeded_eq, (fire_frame _).2.2.2.2.1]
                obtain ⟨c, x, e3⟩ := notifyOk_eq (u.poppedTo q) e.timerRuns
                rw [e3]
              have hpm : (u.poppedTo q).min = q.prev + q.n + 1 := by
                have e1 : (u.poppedTo q).next = u.next ∧ (u.poppedTo q).flying = u.flying - poppedSize u.fly (q.prev + 1) := by
                  unfold State.poppedTo; dsimp only; split <;> exact ⟨rfl, rfl⟩
                show (u.poppedTo q).next - (u.poppedTo q).flying = _
                rw [e1.1, e1.2, hun.1, hun.2.1, hun.2.2, hq1]
                omega
              rw [hmin, hpm] at hlt ⊢
              rw [hcnt, poppedTo_counted]
              left
              by_cases hn : 0 < q.n
              · rw [if_pos hn, hum]; simp
              · have hz : f.size = 0 := by omega
                have := (hi.zero f hf hz).1
                have hc := hi.chain
                rw [this] at hc; simp [Chain] at hc; omega
  | installed i ok e hi' =>
    have hne : s.installs ≠ [] := by intro h'; rw [h'] at hi'; simp at hi'
    have hfly : s.fly = [] := by
      cases hl : s.fly with
      | nil => rfl
      | cons x l => exact absurd (hi.fly (by rw [hl]; simp)).2.2 hne
    obtain ⟨hf0, _⟩ := hi.flying_nil hfly
    unfold State.installed at hlt ⊢
    dsimp only at hlt ⊢
    split
    · rename_i hal; rw [if_pos hal] at hlt; exact absurd hlt (Nat.lt_irrefl _)
    · rename_i hal; rw [if_neg hal] at hlt
      split
      · rename_i hok; rw [if_pos hok] at hlt
        rw [(frame_block _).min] at hlt; exact absurd hlt (Nat.lt_irrefl _)
      · rename_i hok; rw [if_neg hok] at hlt
        have hok : ok = true := by simpa using hok
        subst hok
        right
        generalize hu : ({ s with installs := s.installs.erase i, snaps := (if true = true then i :: s.snaps else s.snaps), reader := false, next := i + 1, hasSucc := true } : State) = u at hlt ⊢
        obtain ⟨c, x, e3⟩ := notifyOk_eq u e.timerRuns
        have f1 := frame_sendEntries ((u.notifyOk e.timerRuns).fire) w e
        have f2 := fire_frame (u.notifyOk e.timerRuns)
        have hm : u.min = i + 1 := by subst hu; show i + 1 - s.flying = i + 1; omega
        have e4 : ((u.notifyOk e.timerRuns).fire.sendEntries w e).min = i + 1 := by rw [f1.min, f2.1, e3]; exact hm
        have e5 : ((u.notifyOk e.timerRuns).fire.sendEntries w e).snaps = u.snaps := by rw [f1.snaps, f2.2.2.2.2.2.2.2.2.2, e3]
        show ((u.notifyOk e.timerRuns).fire.sendEntries w e).min - 1 ∈ ((u.notifyOk e.timerRuns).fire.sendEntries w e).snaps
        rw [e4, e5]; subst hu; simp
  | wake e =>
    exfalso
    unfold State.wake at hlt
    dsimp only at hlt
    split at hlt
    · exact Nat.lt_irrefl _ hlt
    · split at hlt
      · exact Nat.lt_irrefl _ hlt
      · rw [(frame_sendEntries _ w e).min] at hlt; exact Nat.lt_irrefl _ hlt
  | unblock =>
    exfalso
    unfold State.unblock at hlt
    split at hlt
    · exact Nat.lt_irrefl _ hlt
    · exact Nat.lt_irrefl _ hlt
  | resume io =>
    exfalso
    unfold State.resume at hlt
    dsimp only at hlt
    split at hlt
    · exact Nat.lt_irrefl _ hlt
    · split at hlt
      · exact Nat.lt_irrefl _ hlt
      · rw [(frame_sendEmpty _ w io).min] at hlt; exact Nat.lt_irrefl _ hlt
  | waitCaughtUp m =>
    exfalso
    unfold State.waitCaughtUp at hlt
    dsimp only at hlt
    split at hlt
    · exact Nat.lt_irrefl _ hlt
    · split at hlt
      · exact Nat.lt_irrefl _ hlt
      · split at hlt
        · exact Nat.lt_irrefl _ hlt
        · exact Nat.lt_irrefl _ hlt
  | transfer =>
    exfalso
    unfold State.transfer at hlt
    dsimp only at hlt
    split at hlt
    · exact Nat.lt_irrefl _ hlt
    · split at hlt
      · exact Nat.lt_irrefl _ hlt
      · exact Nat.lt_irrefl _ hlt
  | stopTransfer => exact absurd hlt (Nat.lt_irrefl _)
  | stop =>
    exfalso
    unfold State.stop at hlt
    obtain ⟨c, x, e⟩ := notifyErr_eq s .perm
    rw [e] at hlt
    split at hlt
    · exact Nat.lt_irrefl _ hlt
    · exact Nat.lt_irrefl _ hlt
  | catchTimeout =>
    exfalso
    unfold State.catchTimeout at hlt
    obtain ⟨c, x, e⟩ := notifyErr_eq s .timedout
    rw [e] at hlt
    split at hlt
    · exact Nat.lt_irrefl _ hlt
    · exact Nat.lt_irrefl _ hlt
  | readonlyOff a b hro => cases hro
  | append k => exact absurd hlt (Nat.lt_irrefl _)
  | compact snap first =>
    exfalso
    unfold State.compact at hlt
    split at hlt
    · exact Nat.lt_irrefl _ hlt
    · exact Nat.lt_irrefl _ hlt

/-- C41: no CHECK of the replicator fails. -/
theorem C41_no_check_partial {T : Nat} {w : Bool} {s : State} (h : Run T w false s) : s.bad = false := h.inv.nbad

/-- C43: a TimeoutNow request of transfer_leadership_to is sent only when the peer has acknowledged what was the last index
of the leader when the transfer was asked for. Missing: switching readonly mode off (see `readonly_breaks_transfer`). -/
theorem C43_timeout_now_partial {T : Nat} {w : Bool} {s : State} (h : Run T w false s) (i : Nat) (hi : i ∈ s.tnow) : PeerHas s i ∧ i ∈ s.asked :=
  ⟨h.inv.tn i hi, h.once.tn i hi⟩

/-- C43: after stop_transfer_leadership (a transfer that timed out) no TimeoutNow is sent until the next transfer. -/
theorem C43_stopped {T : Nat} {w ro : Bool} {s t : State} (h0 : s.tni = 0) (hs : Step T w ro s t) (ht : ∀ i, t.asked ≠ i :: s.asked) :
    t.tnow = s.tnow ∧ t.tni = 0 := by
  have hfire : ∀ u : State, u.tni = 0 → u.fire = u := by
    intro u hu; unfold State.fire; rw [if_neg]; omega
  cases hs with
  | returned q r e hq =>
    unfold State.returned
    dsimp only
    split
    · exact ⟨rfl, h0⟩
    · split
      · exact ⟨rfl, h0⟩
      · generalize hu : ({ s with out := s.out.erase q, acks := r.acks T q s.acks, bad := s.bad || !(decide (0 < ({ s with out := s.out.erase q, acks := r.acks T q s.acks } : State).min)) } : State) = u
        have hut : u.tnow = s.tnow ∧ u.tni = s.tni := by subst hu; exact ⟨rfl, rfl⟩
        cases r with
        | failed =>
          have f := (frame_reset u).trans (frame_block _)
          exact ⟨f.tnow.trans hut.1, f.tni.trans (hut.2.trans h0)⟩
        | resp b t l =>
          cases b with
          | false =>
            dsimp only
            split
            · obtain ⟨c, x, e2⟩ := notifyErr_eq u.reset .perm
              rw [e2]; exact ⟨(frame_reset u).tnow.trans hut.1, (frame_reset u).tni.trans (hut.2.trans h0)⟩
            · have f := frame_sendEmpty (u.backoff l) w e.io
              rw [f.tnow, f.tni]
              unfold State.backoff; dsimp only
              split
              · exact ⟨hut.1, hut.2.trans h0⟩
              · split
                · exact ⟨hut.1, hut.2.trans h0⟩
                · exact ⟨hut.1, hut.2.trans h0⟩
          | true =>
            dsimp only
            split
            · exact ⟨(frame_reset u).tnow.trans hut.1, (frame_reset u).tni.trans (hut.2.trans h0)⟩
            · have f := frame_sendEntries (u.succeeded q e.timerRuns) w e
              rw [f.tnow, f.tni, succeeded_eq]
              obtain ⟨c, x, e3⟩ := notifyOk_eq (u.poppedTo q) e.timerRuns
              have e4 : (u.poppedTo q).tnow = u.tnow ∧ (u.poppedTo q).tni = u.tni := by
                unfold State.poppedTo; dsimp only; split <;> exact ⟨rfl, rfl⟩
              have h5 : ((u.poppedTo q).notifyOk e.timerRuns).tni = 0 := by rw [e3]; exact e4.2.trans (hut.2.trans h0)
              rw [hfire _ h5, e3]
              exact ⟨e4.1.trans hut.1, e4.2.trans (hut.2.trans h0)⟩
  | installed i ok e hi =>
    unfold State.installed
    dsimp only
    split
    · exact ⟨rfl, h0⟩
    · split
      · rw [(frame_block _).tnow, (frame_block _).tni]; exact ⟨rfl, h0⟩
      · generalize hu : ({ s with installs := s.installs.erase i, snaps := (if ok = true then i :: s.snaps else s.snaps), reader := false, next := i + 1, hasSucc := true } : State) = u
        have hut : u.tnow = s.tnow ∧ u.tni = 0 := by subst hu; exact ⟨rfl, h0⟩
        obtain ⟨c, x, e3⟩ := notifyOk_eq u e.timerRuns
        have h5 : (u.notifyOk e.timerRuns).tni = 0 := by rw [e3]; exact hut.2
        have f := frame_sendEntries ((u.notifyOk e.timerRuns).fire) w e
        show ((u.notifyOk e.timerRuns).fire.sendEntries w e).tnow = _ ∧ ((u.notifyOk e.timerRuns).fire.sendEntries w e).tni = 0
        rw [f.tnow, f.tni, hfire _ h5, e3]; exact hut
  | wake e =>
    unfold State.wake
    split
    · exact ⟨rfl, h0⟩
    · dsimp only
      split
      · exact ⟨rfl, h0⟩
      · rw [(frame_sendEntries _ w e).tnow, (frame_sendEntries _ w e).tni]; exact ⟨rfl, h0⟩
  | unblock =>
    unfold State.unblock
    split <;> exact ⟨rfl, h0⟩
  | resume io =>
    unfold State.resume
    split
    · exact ⟨rfl, h0⟩
    · dsimp only
      split
      · exact ⟨rfl, h0⟩
      · rw [(frame_sendEmpty _ w io).tnow, (frame_sendEmpty _ w io).tni]; exact ⟨rfl, h0⟩
  | waitCaughtUp m =>
    unfold State.waitCaughtUp
    dsimp only
    split
    · exact ⟨rfl, h0⟩
    · split
      · exact ⟨rfl, h0⟩
      · split <;> exact ⟨rfl, h0⟩
  | transfer =>
    unfold State.transfer at ht ⊢
    split
    · exact ⟨rfl, h0⟩
    · rename_i hal
      rw [if_neg hal] at ht
      dsimp only at ht
      split at ht <;> exact absurd rfl (ht s.last)
  | stopTransfer => exact ⟨rfl, rfl⟩
  | stop =>
    unfold State.stop
    obtain ⟨c, x, e⟩ := notifyErr_eq s .perm
    rw [e]
    split <;> exact ⟨rfl, h0⟩
  | catchTimeout =>
    unfold State.catchTimeout
    obtain ⟨c, x, e⟩ := notifyErr_eq s .timedout
    rw [e]
    split <;> exact ⟨rfl, h0⟩
  | readonlyOff a b hro =>
    unfold State.readonlyOff
    split
    · rw [(frame_waitMore s a b).tnow, (frame_waitMore s a b).tni]; exact ⟨rfl, h0⟩
    · exact ⟨rfl, h0⟩
  | append k => exact ⟨rfl, h0⟩
  | compact snap first =>
    unfold State.compact
    split <;> exact ⟨rfl, h0⟩

/-- C56: wait_for_caught_up reports that a new peer has caught up only when the peer has acknowledged all entries up to
`margin` before the last. -/
theorem C56_caught_up_partial {T : Nat} {w : Bool} {s : State} (h : Run T w false s) (id margin last : Nat)
    (hr : (id, margin, Caught.ok last) ∈ s.ran) : PeerHas s (last - margin) := h.inv.cr _ hr last rfl

/-- C56: every closure of wait_for_caught_up runs at most once, and has run when the replicator has stopped. -/
theorem C56_closure_once {T : Nat} {w ro : Bool} {s : State} (h : Run T w ro s) :
    (s.ran.map (·.1)).Nodup ∧ (s.alive = false → ∀ i, i < s.nwait → ∃ x ∈ s.ran, x.1 = i) := by
  refine ⟨h.once.nodup, fun hd i hi => ?_⟩
  rcases h.once.all i hi with hx | ⟨c, hc, _⟩
  · exact hx
  · rw [h.once.dead hd] at hc; cases hc

/-- The index that get_next_index reports, and by which the candidate to be woken is chosen: the peer has acknowledged
everything before it. -/
theorem C43_next_index_acked_partial {T : Nat} {w : Bool} {s : State} (h : Run T w false s) (hn : s.nextIndex ≠ 0) : PeerHas s (s.nextIndex - 1) := by
  unfold State.nextIndex at hn ⊢
  by_cases hc : s.alive = true ∧ s.hasSucc = true
  · rw [if_pos hc]; exact h.inv.succ hc.2
  · rw [if_neg hc] at hn; exact absurd rfl hn

/-! ### Examples -/

namespace ReplEx

/-- No limits. -/
def renv : Env := ⟨1024, 4, 100, false, .sent, false⟩

def rq (c p n : Nat) : Req := ⟨c, p, n⟩

/-- A leader with entries 1 to 5; the probe says the peer has 3; the probe at 3 succeeds; 4 and 5 are sent, then 6 to 8 are
appended and sent; the second answer comes first. The leadership is transferred in between. -/
def ex1 : State := State.start 1 5 0 false .sent
def ex2 : State := ex1.returned 7 false (rq 0 5 0) (.resp false 7 3) renv
def ex3 : State := ex2.returned 7 false (rq 1 3 0) (.resp true 7 3) renv
def ex4 : State := (ex3.append 3).wake false renv
def ex5 : State := ex4.transfer
def ex6 : State := ex5.waitCaughtUp 0
def ex7 : State := ex6.returned 7 false (rq 3 5 3) (.resp true 7 8) renv
def ex8 : State := ex7.returned 7 false (rq 2 3 2) (.resp true 7 8) renv

theorem ex_run : Run 7 false false ex8 := by
  have h1 : Run 7 false false ex1 := Run.start 1 5 0 .sent (by decide) (by decide) (by decide)
  have h2 : Run 7 false false ex2 := h1.step (.returned _ _ _ _ (by decide))
  have h3 : Run 7 false false ex3 := h2.step (.returned _ _ _ _ (by decide))
  have h4 : Run 7 false false ex4 := (h3.step (.append _ 3)).step (.wake _ renv)
  have h5 : Run 7 false false ex5 := h4.step (.transfer _)
  have h6 : Run 7 false false ex6 := h5.step (.waitCaughtUp _ 0)
  have h7 : Run 7 false false ex7 := h6.step (.returned _ _ _ _ (by decide))
  exact h7.step (.returned _ _ _ _ (by decide))

example : ex8.counted = [(4, 8)] ∧ ex8.tnow = [8] ∧ ex8.ran = [(0, 0, .ok 8)] ∧ ex8.next = 9 ∧ ex8.fly = [] ∧
    ex8.acks = [rq 2 3 2, rq 3 5 3, rq 1 3 0] ∧ ex8.nextIndex = 9 := by decide

example : ex6.min < ex7.min ∧ ex7.min = 9 := by decide

/-- The second answer is stale: it changes nothing but the history. -/
example : ∀ f ∈ ex7.fly, f.call ≠ (rq 2 3 2).call := by decide

/-- Snapshot: the log of the leader starts at 6; the peer has nothing. -/
def ey1 : State := State.start 6 9 5 false .sent
def ey1b : State := ey1.returned 7 false (rq 0 9 0) (.resp false 7 0) renv
def ey2 : State := ey1b.returned 7 false (rq 1 0 0) (.resp true 7 0) renv
def ey3 : State := ey2.transfer
def ey4 : State := ey3.installed false 5 true renv
def ey5 : State := ey4.returned 7 false (rq 2 5 4) (.resp true 7 9) renv

theorem ey_run : Run 7 false false ey5 := by
  have h1 : Run 7 false false ey1 := Run.start 6 9 5 .sent (by decide) (by decide) (by decide)
  have h1b : Run 7 false false ey1b := h1.step (.returned _ _ _ _ (by decide))
  have h2 : Run 7 false false ey2 := h1b.step (.returned _ _ _ _ (by decide))
  have h3 : Run 7 false false ey3 := h2.step (.transfer _)
  have h4 : Run 7 false false ey4 := h3.step (.installed _ _ _ _ (by decide))
  exact h4.step (.returned _ _ _ _ (by decide))

example : ey2.next = 1 ∧ ey2.installs = [5] ∧ ey4.min = 6 ∧ ey4.snaps = [5] ∧ ey4.tnow = [] ∧ ey5.tnow = [9] ∧ ey5.counted = [(6, 9)] := by decide

/-- Failed call: the replicator blocks, then probes again. -/
def ez2 : State := ((ex1.returned 7 false (rq 0 5 0) .failed renv).unblock).resume false .sent
example : ez2.fly = [⟨6, 0, 1⟩] ∧ ez2.st = .appending ∧ ez2.bad = false := by decide

/-- A closure that times out, one that is refused, and one at the stop. -/
def eu : State := ((((ex1.waitCaughtUp 0).waitCaughtUp 0).catchTimeout).waitCaughtUp 3).stop
example : eu.ran = [(2, 3, .perm), (0, 0, .timedout), (1, 0, .inval)] ∧ eu.alive = false ∧ eu.nwait = 3 := by decide

/-! ### Leaving readonly mode -/

/-- The probe of a new replicator is in flight (entries 1 to 5) and the peer leaves readonly mode: a waiter is registered.
Entries 6 to 8 come and are sent behind the probe. -/
def ro1 : State := ex1.readonlyOff 1024 4
def ro2 : State := (ro1.append 3).wake false renv
/-- The probe succeeds: it says that the peer has the entries up to 5. Leadership is transferred. -/
def ro3 : State := ro2.returned 7 false (rq 0 5 0) (.resp true 7 5) renv
def ro4 : State := (ro3.transfer).waitCaughtUp 0

end ReplEx
open ReplEx

/-- Finding (C43, C56): after readonly mode was switched off, with more than one AppendEntries in flight allowed, TimeoutNow is
sent and the peer is reported as caught up at 8 although it has acknowledged only 5; its later answer for 6 to 8 is ignored
and not counted (C41). -/
theorem readonly_breaks_transfer : ∃ s, Run 7 false true s ∧ s.tnow = [8] ∧ s.ran = [(0, 0, .ok 8)] ∧ (∀ q ∈ s.acks, q.prev + q.n ≤ 5) ∧
    s.snaps = [] ∧ s.out = [rq 1 5 3] ∧ (∀ T w r e, (s.returned T w (rq 1 5 3) r e).counted = []) := by
  refine ⟨ro4, ?_, by decide, by decide, by decide, by decide, by decide, ?_⟩
  · have h1 : Run 7 false true ex1 := Run.start 1 5 0 .sent (by decide) (by decide) (by decide)
    have h2 : Run 7 false true ro1 := h1.step (.readonlyOff _ _ _ rfl)
    have h3 : Run 7 false true ro2 := (h2.step (.append _ 3)).step (.wake _ renv)
    have h4 : Run 7 false true ro3 := h3.step (.returned _ _ _ _ (by decide))
    exact (h4.step (.transfer _)).step (.waitCaughtUp _ 0)
  · intro T w r e
    rw [C41_stale T w ro4 (rq 1 5 3) r e (by decide) (by decide)]
    show ro4.counted = []
    decide

/-- Finding: with one AppendEntries at a time (the default): the peer is blocked after an error, leaves readonly mode, an
entry is sent to it, and when the block timer fires the probe is sent behind that entry: CHECK(_append_entries_in_fly.empty())
fails. -/
theorem readonly_breaks_check : ∃ s, Run 7 false true s ∧ s.bad = true := by
  let e1 : Env := { renv with maxPar := 1 }
  refine ⟨(((((ex1.returned 7 false (rq 0 5 0) .failed e1).readonlyOff 1024 1).append 3).wake false e1).unblock).resume false .sent, ?_, by decide⟩
  have h1 : Run 7 false true ex1 := Run.start 1 5 0 .sent (by decide) (by decide) (by decide)
  have h2 := h1.step (.returned _ (rq 0 5 0) .failed e1 (by decide))
  have h3 := (h2.step (.readonlyOff _ 1024 1 rfl)).step (.append _ 3)
  exact ((h3.step (.wake _ e1)).step (.unblock _)).step (.resume _ .sent)

end Braft.Props
