import Verif.Node.Shutdown
/-
C81. Shutting a node down: the closures of shutdown(), on_shutdown, join() and the lifetime of the node. `Run`: all
histories of a node from its construction to its destruction, with all interleavings of its threads.
-/
set_option linter.unusedVariables false

namespace Braft.Props.Shutdown
open Braft.Shutdown

/-- What may happen later. -/
inductive Later (s : State) : State → Prop where
  | refl : Later s s
  | step {s' s'' : State} (h : Later s s') (hs : Step s' s'') : Later s s''

theorem later_run {s s' : State} (h : Run s) (hl : Later s s') : Run s' := by
  induction hl with
  | refl => exact h
  | step _ hs ih => exact .step ih hs

/-- **C81.** The node is never used after it was destroyed, and it is destroyed only after the Node object gave it up,
everybody else dropped their references, and the FSMCaller, if it ever ran, ended. -/
theorem C81_no_use_after_free {s : State} (h : Run s) :
    s.bad = false ∧ (s.freed = true → s.user = .gone ∧ s.others = 0 ∧ (s.fsm = .none ∨ s.fsm = .finished)) := by
  have hi := h.inv
  refine ⟨hi.bad, fun hf => ?_⟩
  have h0 := hi.freed hf
  have hr := hi.refs
  have hu : s.user = .gone := by
    cases hu : s.user <;> first | rfl | (rw [hu] at hr; simp only [User.refs] at hr; omega)
  exact ⟨hu, by omega, hi.gone (Or.inr hu)⟩

/-- **C81.** A closure passed to shutdown() runs at most once, and not unless it was passed; when the FSMCaller has
ended, all that were passed have run. -/
theorem C81_shutdown_closures_partial {s : State} (h : Run s) :
    s.ran.Nodup ∧ (∀ d ∈ s.ran, d ∈ s.given) ∧ (s.fsm = .finished → ∀ d ∈ s.given, d ∈ s.ran) := by
  have hi := h.inv
  have hnd := hi.perm.nodup_iff.mp hi.nd
  refine ⟨(List.nodup_append.mp (List.nodup_append.mp hnd).1).1, ?_, ?_⟩
  · intro d hd
    exact hi.perm.mem_iff.mpr (List.mem_append_left _ (List.mem_append_left _ hd))
  · intro hf d hd
    have h1 := hi.perm.mem_iff.mp hd
    have h2 : s.st = .down := by have := hi.st; rw [hf] at this; exact this
    rw [hi.conts h2, hf] at h1
    simpa [Fsm.saved] using h1

/-- **C81.** Once shutdown() was called the FSMCaller, if it was started, ends without anybody's help: its thread has
only to execute its tasks and the rest of do_shutdown. Then all closures have run, and join() returns. -/
theorem C81_shutdown_ends {s : State} (h : Run s) (hs : s.st = .shutting ∨ s.st = .down) (hf : s.fsm ≠ .none) :
    ∃ s', Later s s' ∧ s'.fsm = .finished ∧ s'.joinable ∧ s'.given = s.given ∧ ∀ d ∈ s.given, d ∈ s'.ran := by
  have key : ∃ s', Later s s' ∧ s'.fsm = .finished ∧ s'.given = s.given := by
    have hi := h.inv
    -- from a state behind execution_queue_stop
    have d1 : ∀ (t : State) (l : List Nat), t.fsm = .dropped l → ∃ s', Later t s' ∧ s'.fsm = .finished ∧ s'.given = t.given := by
      intro t l ht
      refine ⟨t.stopStep, .step .refl (.stopStep t), ?_, ?_⟩ <;> (unfold State.stopStep; rw [ht])
    have tr : ∀ (t u : State), Step t u → u.given = t.given → (∃ s', Later u s' ∧ s'.fsm = .finished ∧ s'.given = u.given) →
        ∃ s', Later t s' ∧ s'.fsm = .finished ∧ s'.given = t.given := by
      rintro t u hs hg ⟨s', hl, h1, h2⟩
      refine ⟨s', ?_, h1, h2.trans hg⟩
      clear h1 h2
      induction hl with
      | refl => exact .step .refl hs
      | step _ hx ih => exact .step ih hx
    have d2 : ∀ (t : State) (l : List Nat), t.fsm = .swapped l → ∃ s', Later t s' ∧ s'.fsm = .finished ∧ s'.given = t.given := by
      intro t l ht
      refine tr t t.stopStep (.stopStep t) ?_ (d1 _ l ?_) <;> (unfold State.stopStep; rw [ht]; first | rfl | skip)
    have d3 : ∀ (t : State), t.fsm = .told → ∃ s', Later t s' ∧ s'.fsm = .finished ∧ s'.given = t.given := by
      intro t ht
      refine tr t t.stopStep (.stopStep t) ?_ (d2 _ t.conts ?_) <;> (unfold State.stopStep; rw [ht]; first | rfl | skip)
    have d4 : ∀ (t : State), t.fsm = .released → ∃ s', Later t s' ∧ s'.fsm = .finished ∧ s'.given = t.given := by
      intro t ht
      refine tr t t.stopStep (.stopStep t) ?_ (d3 _ ?_) <;> (unfold State.stopStep; rw [ht])
    have d5 : ∀ (n : Nat) (t : State), t.fsm = .stopped → t.tasks = n →
        ∃ s', Later t s' ∧ s'.fsm = .finished ∧ s'.given = t.given := by
      intro n
      induction n with
      | zero =>
        intro t ht hn
        refine tr t t.stopStep (.stopStep t) ?_ (d4 _ ?_) <;> (unfold State.stopStep; rw [ht]; dsimp only; rw [if_pos hn]; first | rfl | skip)
      | succ n ih =>
        intro t ht hn
        refine tr t (t.task false) (.task t false (Or.inr ht) (by omega)) rfl (ih _ ht ?_)
        unfold State.task
        dsimp only
        omega
    have hst := hi.st
    cases hfs : s.fsm with
    | none => exact absurd hfs hf
    | running => rw [hfs] at hst; rcases hs with hs | hs <;> rcases hst with hst | hst <;> rw [hs] at hst <;> cases hst
    | stopped => exact d5 _ s hfs rfl
    | released => exact d4 s hfs
    | told => exact d3 s hfs
    | swapped l => exact d2 s l hfs
    | dropped l => exact d1 s l hfs
    | finished => exact ⟨s, .refl, hfs, rfl⟩
  obtain ⟨s', hl, hfin, hg⟩ := key
  refine ⟨s', hl, hfin, Or.inr hfin, hg, ?_⟩
  intro d hd
  exact (C81_shutdown_closures_partial (later_run h hl)).2.2 hfin d (by rw [hg]; exact hd)

/-- **C81.** on_shutdown is called at most once, and nothing is called after it. -/
theorem C81_on_shutdown_once_and_last {s : State} (h : Run s) (a b : List Ev) (ho : s.out = a ++ .shutdown :: b) :
    b = [] ∧ Ev.shutdown ∉ a := by
  have hi := h.inv
  have hc := hi.out
  have ho' : s.fsm.over = true := by
    cases hov : s.fsm.over with
    | true => rfl
    | false =>
      rw [hov, ho, List.count_append, List.count_cons_self] at hc
      simp at hc
  rw [ho', ho, List.count_append, List.count_cons_self] at hc
  simp only [if_true] at hc
  refine ⟨?_, fun hm => ?_⟩
  · cases hb : b.reverse with
    | nil => simpa using hb
    | cons x xs =>
      have hb' : b = xs.reverse ++ [x] := by rw [← List.reverse_reverse b, hb, List.reverse_cons]
      have hl := hi.last ho'
      rw [ho, hb', show a ++ Ev.shutdown :: (xs.reverse ++ [x]) = (a ++ Ev.shutdown :: xs.reverse) ++ [x] by simp,
        List.getLast?_concat] at hl
      simp only [Option.some.injEq] at hl
      rw [hb', hl, List.count_append] at hc
      simp at hc
      omega
  · have := List.count_pos_iff.mpr hm
    omega

theorem shutdown_frame (s : State) (d : Option Nat) (h3 : s.st ≠ .uninit) (h4 : s.st ≠ .up) :
    (s.shutdown d).out = s.out ∧ (s.shutdown d).fsm = s.fsm ∧ (s.shutdown d).st = s.st ∧
      (s.st = .shutting → (s.shutdown d).ran = s.ran) := by
  have hc : ¬ (s.st = .uninit ∨ s.st = .up) := fun hh => hh.elim h3 h4
  unfold State.shutdown State.use
  simp only [hc, if_false]
  split
  · exact ⟨rfl, rfl, rfl, fun _ => rfl⟩
  · rename_i hh
    refine ⟨rfl, rfl, rfl, fun hs => ?_⟩
    exact absurd (by show s.st ≠ .down; rw [hs]; decide) hh

/-- **C81.** When join() can return after shutdown() was called, the state machine is not called any more, so that the
user may delete it; and if the FSMCaller ever ran, on_shutdown has been called. -/
theorem C81_join_is_the_end {s : State} (h : Run s) (hj : s.joinable) (hs : s.st ≠ .uninit) :
    (s.fsm = .finished → s.out.getLast? = some .shutdown) ∧ ∀ s', Later s s' → s'.out = s.out := by
  refine ⟨fun hf => h.inv.last (by rw [hf]; rfl), ?_⟩
  have hup : s.st ≠ .up := by
    have := h.inv.st
    rcases hj with hj | hj <;> rw [hj] at this
    · exact this.2
    · rw [this]; decide
  intro s' hl
  have : s'.out = s.out ∧ (s'.fsm = .none ∨ s'.fsm = .finished) ∧ s'.st ≠ .uninit ∧ s'.st ≠ .up := by
    induction hl with
    | refl => exact ⟨rfl, hj, hs, hup⟩
    | step hl hx ih =>
      obtain ⟨h1, h2, h3, h4⟩ := ih
      cases hx with
      | startFsm ok hh _ _ _ => exact absurd hh h3
      | initDone hh _ _ => exact absurd hh h3
      | enqueue =>
        unfold State.enqueue
        split
        · rename_i hh; rcases h2 with h2 | h2 <;> rw [h2] at hh <;> cases hh
        · exact ⟨h1, h2, h3, h4⟩
      | task calls hh _ => rcases h2 with h2 | h2 <;> rcases hh with hh | hh <;> rw [h2] at hh <;> cases hh
      | shutdown d hu hd =>
        rename_i t
        obtain ⟨e1, e2, e3, _⟩ := shutdown_frame t d h3 h4
        exact ⟨e1.trans h1, by show (t.shutdown d).fsm = _ ∨ (t.shutdown d).fsm = _; rw [e2]; exact h2,
          by show (t.shutdown d).st ≠ _; rw [e3]; exact h3, by show (t.shutdown d).st ≠ _; rw [e3]; exact h4⟩
      | stopStep =>
        unfold State.stopStep
        rcases h2 with h2 | h2 <;> rw [h2] <;> exact ⟨h1, by first | exact Or.inl h2 | exact Or.inr h2, h3, h4⟩
      | join hu hj' => exact ⟨h1, h2, h3, h4⟩
      | dtorShut hu =>
        rename_i t
        obtain ⟨e1, e2, e3, _⟩ := shutdown_frame t none h3 h4
        exact ⟨e1.trans h1, by show (t.shutdown none).fsm = _ ∨ (t.shutdown none).fsm = _; rw [e2]; exact h2,
          by show (t.shutdown none).st ≠ _; rw [e3]; exact h3, by show (t.shutdown none).st ≠ _; rw [e3]; exact h4⟩
      | dtorJoin hu hj' => exact ⟨h1, h2, h3, h4⟩
      | dtorRel hu => exact ⟨h1, h2, h3, h4⟩
      | acquire hh => exact ⟨h1, h2, h3, h4⟩
      | drop hh => exact ⟨h1, h2, h3, h4⟩
  exact this.1

/-! ### A whole life -/

def l1 : State := (((State.init.startFsm true).initDone).enqueue).enqueue
def l2 : State := ((l1.task true).shutdown (some 1)).shutdown (some 2)
def l3 : State := (((((l2.task true).stopStep).stopStep).stopStep).stopStep).stopStep
def l4 : State := { (({ (({ (l3.shutdown none) with user := .shut } : State).joinRet) with user := .joined } : State).release) with user := .gone }

theorem l2_run : Run l2 := by
  have h1 : Run l1 :=
    .step (.step (.step (.step .init (.startFsm _ true rfl rfl rfl rfl)) (.initDone _ rfl rfl rfl)) (.enqueue _)) (.enqueue _)
  exact .step (.step (.step h1 (.task _ true (Or.inl rfl) (by decide))) (.shutdown _ (some 1) rfl (by decide)))
    (.shutdown _ (some 2) rfl (by decide))

theorem l4_run : Run l4 := by
  have h3 : Run l3 :=
    .step (.step (.step (.step (.step (.step l2_run (.task _ true (Or.inr rfl) (by decide))) (.stopStep _)) (.stopStep _))
      (.stopStep _)) (.stopStep _)) (.stopStep _)
  exact .step (.step (.step h3 (.dtorShut _ rfl)) (.dtorJoin _ rfl (Or.inr rfl))) (.dtorRel _ rfl)

example : l2.st = .shutting ∧ l2.fsm = .stopped ∧ l2.given = [1, 2] ∧ l2.ran = [] := by decide
example : l3.fsm = .finished ∧ l3.st = .down ∧ l3.out.getLast? = some .shutdown := by decide
example : l4.freed = true ∧ l4.bad = false ∧ l4.out = [.call, .call, .shutdown] ∧ l4.ran = [1, 2] ∧ l4.refs = 0 := by decide

/-! ### What is missing -/

/-- **C81, missing part.** If init() failed before it started the FSMCaller (no service registered at the address, the
log cannot be opened, ...), a closure passed to shutdown() never runs, whatever happens later. -/
theorem C81_closure_lost_after_failed_init :
    ∃ s, Run s ∧ 7 ∈ s.given ∧ ∀ s', Later s s' → s'.ran = [] := by
  have hr : Run (State.init.shutdown (some 7)) := .step .init (.shutdown _ (some 7) rfl (by decide))
  refine ⟨_, hr, by decide, ?_⟩
  intro s' hl
  have : s'.fsm = .none ∧ s'.st = .shutting ∧ s'.ran = [] := by
    induction hl with
    | refl => decide
    | step hl hx ih =>
      obtain ⟨h1, h2, h3⟩ := ih
      cases hx with
      | startFsm ok hh _ _ _ => rw [h2] at hh; cases hh
      | initDone hh _ _ => rw [h2] at hh; cases hh
      | enqueue =>
        unfold State.enqueue
        split
        · rename_i hh; rw [h1] at hh; cases hh
        · exact ⟨h1, h2, h3⟩
      | task calls hh _ => rw [h1] at hh; rcases hh with hh | hh <;> cases hh
      | shutdown d hu hd =>
        rename_i t
        obtain ⟨_, e2, e3, e4⟩ := shutdown_frame t d (by rw [h2]; decide) (by rw [h2]; decide)
        exact ⟨e2.trans h1, e3.trans h2, (e4 h2).trans h3⟩
      | stopStep => unfold State.stopStep; rw [h1]; exact ⟨h1, h2, h3⟩
      | join hu hj' => exact ⟨h1, h2, h3⟩
      | dtorShut hu =>
        rename_i t
        obtain ⟨_, e2, e3, e4⟩ := shutdown_frame t none (by rw [h2]; decide) (by rw [h2]; decide)
        exact ⟨e2.trans h1, e3.trans h2, (e4 h2).trans h3⟩
      | dtorJoin hu hj' => exact ⟨h1, h2, h3⟩
      | dtorRel hu => exact ⟨h1, h2, h3⟩
      | acquire hh => exact ⟨h1, h2, h3⟩
      | drop hh => exact ⟨h1, h2, h3⟩
  exact this.2.2

/-- **C81, missing part.** If the FSMCaller's queue cannot be started, FSMCaller::init keeps its reference: the node is
never destroyed. -/
theorem C81_leak_after_failed_queue : ∃ s, Run s ∧ s.leaked = 1 ∧ ∀ s', Later s s' → s'.freed = false := by
  have hr : Run (State.init.startFsm false) := .step .init (.startFsm _ false rfl rfl rfl rfl)
  refine ⟨_, hr, by decide, ?_⟩
  intro s' hl
  have hk : s'.leaked = 1 := by
    have : ∀ a b : State, Step a b → a.leaked = 1 → b.leaked = 1 := by
      intro a b hx h1
      cases hx with
      | startFsm ok _ _ _ hk => omega
      | enqueue => unfold State.enqueue; split <;> exact h1
      | shutdown d hu hd => unfold State.shutdown State.use; dsimp only; split <;> split <;> exact h1
      | stopStep =>
        unfold State.stopStep State.release State.use
        split <;> first | exact h1 | (split <;> exact h1)
      | dtorShut hu => unfold State.shutdown State.use; dsimp only; split <;> split <;> exact h1
      | _ => exact h1
    induction hl with
    | refl => decide
    | step hl hx ih => exact this _ _ hx ih
  have hi := (later_run hr hl).inv
  cases hf : s'.freed with
  | false => rfl
  | true => have := hi.freed hf; have := hi.refs; omega

end Braft.Props.Shutdown
