/-
Model of how a node ends: Node::~Node (raft.cpp:140-147), NodeImpl::shutdown (node.cpp:987-1050), join (1052-1063),
after_shutdown (2588-2603), the part of NodeImpl::init that starts the FSMCaller (node.cpp:363-383, 553-588),
FSMCaller::init, shutdown, do_shutdown and join (fsm_caller.cpp:155-209, 546-551), and the reference count of NodeImpl.

* A critical section of NodeImpl::_mutex is one step, and so is each statement of do_shutdown and after_shutdown that
  touches the node or calls the user; threads run between any two of them.
* The queue of the FSMCaller is the number of its tasks; what they do is in Fsm.lean and Node/Life.lean. Tasks queued
  before execution_queue_stop are executed before the last call of FSMCaller::run (bthread's execution queue), later
  ones are refused.
* References held by timers, RPCs in flight, replicators and closures are the number `others`; such a reference is
  taken by somebody who has one (or by the user through the Node object).
* The replicator group, the log manager and the snapshot executor are shut down in the critical section of shutdown;
  what they do then is not modelled here. SnapshotExecutor::join is not either.
-/
set_option linter.unusedVariables false
set_option linter.unusedSimpArgs false

namespace Braft.Shutdown

/-- `_state`, as far as it matters: STATE_UNINITIALIZED, an earlier one, STATE_SHUTTING, STATE_SHUTDOWN. -/
inductive Phase | uninit | up | shutting | down
deriving DecidableEq, Repr

/-- The FSMCaller: not started; its queue runs; execution_queue_stop was called; in do_shutdown after the node's
reference was released (fsm_caller.cpp:197-200); after on_shutdown (201); in after_shutdown behind the critical section
(node.cpp:2590-2595), behind Release (2596), and the queue's last run is over. -/
inductive Fsm | none | running | stopped | released | told | swapped (saved : List Nat) | dropped (saved : List Nat) | finished
deriving DecidableEq, Repr

/-- What the user's state machine sees: any other callback, or on_shutdown. -/
inductive Ev | call | shutdown
deriving DecidableEq, Repr

/-- The owner of the Node object: uses it, is in ~Node behind shutdown(NULL) (raft.cpp:142), behind join() (143), behind
Release() (144). -/
inductive User | alive | shut | joined | gone
deriving DecidableEq, Repr

/-- The node. `given`: closures passed to shutdown(done), by number; `ran`: those that were run (handed to a bthread).
`refs`: the reference count; `others`, `leaked` who holds the ones that the fields above do not tell. `freed`: ~NodeImpl was
called; `bad`: the node was used afterwards. `back`: how many times join() returned. -/
structure State where
  st : Phase
  fsm : Fsm
  tasks : Nat
  out : List Ev
  conts : List Nat
  given : List Nat
  ran : List Nat
  user : User
  refs : Nat
  others : Nat
  leaked : Nat
  freed : Bool
  bad : Bool
  back : Nat
deriving Repr

/-- NodeImpl::NodeImpl (node.cpp:143-167): one reference, the Node object's. -/
def State.init : State :=
  { st := .uninit, fsm := .none, tasks := 0, out := [], conts := [], given := [], ran := [], user := .alive, refs := 1,
    others := 0, leaked := 0, freed := false, bad := false, back := 0 }

/-- The node is used. -/
def State.use (s : State) : State := { s with bad := s.bad || s.freed }

/-- RefCountedThreadSafe::Release: the last one destroys the node (node.cpp:195-243). -/
def State.release (s : State) : State :=
  { s.use with refs := s.refs - 1, freed := s.freed || decide (s.refs = 1) }

def State.addRef (s : State) : State := { s.use with refs := s.refs + 1 }

/-- NodeImpl::init_fsm_caller (node.cpp:363-383) with FSMCaller::init (fsm_caller.cpp:155-188): a reference for
after_shutdown and one for the FSMCaller. If the queue cannot be started only the former is given back. -/
def State.startFsm (s : State) (ok : Bool) : State :=
  let s1 := s.addRef.addRef
  if ok then { s1 with fsm := .running } else { s1.release with leaked := s1.leaked + 1 }

/-- The end of NodeImpl::init (node.cpp:625, and all before it). -/
def State.initDone (s : State) : State := { s.use with st := .up }

/-- FSMCaller::on_committed and the like: execution_queue_execute. -/
def State.enqueue (s : State) : State := if s.fsm = .running then { s with tasks := s.tasks + 1 } else s

/-- The queue executes a task; it calls the state machine or not. -/
def State.task (s : State) (calls : Bool) : State :=
  { s with tasks := s.tasks - 1, out := s.out ++ (if calls then [Ev.call] else []) }

/-- NodeImpl::shutdown (node.cpp:987-1050); `d` is the number of `done`. -/
def State.shutdown (s : State) (d : Option Nat) : State :=
  let s0 := { s.use with given := s.given ++ d.toList }
  let s1 := if s.st = .uninit ∨ s.st = .up then
      { s0 with st := .shutting, fsm := if s.fsm = .running then .stopped else s.fsm }
    else s0
  if s1.st ≠ .down then { s1 with conts := s1.conts ++ d.toList } else { s1 with ran := s1.ran ++ d.toList }

/-- FSMCaller::do_shutdown (fsm_caller.cpp:196-209), statement by statement, then NodeImpl::after_shutdown
(node.cpp:2588-2603). -/
def State.stopStep (s : State) : State :=
  match s.fsm with
  | .stopped => if s.tasks = 0 then { s.release with fsm := .released } else s
  | .released => { s with out := s.out ++ [.shutdown], fsm := .told }
  | .told => { s.use with st := .down, fsm := .swapped s.conts, conts := [] }
  | .swapped l => { s.release with fsm := .dropped l }
  | .dropped l => { s with ran := s.ran ++ l, fsm := .finished }
  | _ => s

/-- NodeImpl::join (node.cpp:1052-1063) with FSMCaller::join (fsm_caller.cpp:546-551) can return. -/
def State.joinable (s : State) : Prop := s.fsm = .none ∨ s.fsm = .finished

/-- join() by the user. -/
def State.joinRet (s : State) : State := { s.use with back := s.back + 1 }

inductive Step : State → State → Prop where
  | startFsm (s : State) (ok : Bool) (h : s.st = .uninit) (hf : s.fsm = .none) (hu : s.user = .alive) (hl : s.leaked = 0) :
      Step s (s.startFsm ok)
  | initDone (s : State) (h : s.st = .uninit) (hf : s.fsm = .running) (hu : s.user = .alive) : Step s s.initDone
  | enqueue (s : State) : Step s s.enqueue
  | task (s : State) (calls : Bool) (h : s.fsm = .running ∨ s.fsm = .stopped) (ht : 0 < s.tasks) : Step s (s.task calls)
  | shutdown (s : State) (d : Option Nat) (hu : s.user = .alive) (hd : ∀ n ∈ d, n ∉ s.given) : Step s (s.shutdown d)
  | stopStep (s : State) : Step s s.stopStep
  | join (s : State) (hu : s.user = .alive) (h : s.joinable) : Step s s.joinRet
  | dtorShut (s : State) (hu : s.user = .alive) : Step s { s.shutdown none with user := .shut }
  | dtorJoin (s : State) (hu : s.user = .shut) (h : s.joinable) : Step s { s.joinRet with user := .joined }
  | dtorRel (s : State) (hu : s.user = .joined) : Step s { s.release with user := .gone }
  /-- a reference is taken by a thread that has one -/
  | acquire (s : State) (h : s.user ≠ .gone ∨ 0 < s.others ∨ s.fsm = .running ∨ s.fsm = .stopped) :
      Step s { s.addRef with others := s.others + 1 }
  | drop (s : State) (h : 0 < s.others) : Step s { s.release with others := s.others - 1 }

inductive Run : State → Prop where
  | init : Run State.init
  | step {s s' : State} (h : Run s) (hs : Step s s') : Run s'

/-! ### Invariant -/

/-- References of the FSMCaller and of after_shutdown. -/
def Fsm.refs : Fsm → Nat
  | .running => 2
  | .stopped => 2
  | .released => 1
  | .told => 1
  | .swapped _ => 1
  | _ => 0

def Fsm.saved : Fsm → List Nat
  | .swapped l => l
  | .dropped l => l
  | _ => []

def User.refs : User → Nat
  | .gone => 0
  | _ => 1

def Fsm.over : Fsm → Bool
  | .told => true
  | .swapped _ => true
  | .dropped _ => true
  | .finished => true
  | _ => false

structure Inv (s : State) : Prop where
  refs : s.refs = s.user.refs + s.fsm.refs + s.others + s.leaked
  freed : s.freed = true → s.refs = 0
  bad : s.bad = false
  perm : s.given.Perm (s.ran ++ s.fsm.saved ++ s.conts)
  nd : s.given.Nodup
  st : match s.fsm with
    | .none => s.st ≠ .down ∧ s.st ≠ .up
    | .running => s.st = .uninit ∨ s.st = .up
    | .stopped => s.st = .shutting
    | .released => s.st = .shutting
    | .told => s.st = .shutting
    | _ => s.st = .down
  conts : s.st = .down → s.conts = []
  tasks : s.fsm = .released ∨ s.fsm.over = true → s.tasks = 0
  out : s.out.count .shutdown = if s.fsm.over then 1 else 0
  last : s.fsm.over = true → s.out.getLast? = some .shutdown
  dtor : s.user ≠ .alive → s.st ≠ .uninit ∧ s.st ≠ .up
  gone : s.user = .joined ∨ s.user = .gone → s.joinable
  none0 : s.fsm = .none → s.ran = []
  live : s.freed = false → 0 < s.refs

theorem inv_init : Inv State.init := by
  constructor <;> simp [State.init, User.refs, Fsm.refs, Fsm.saved, Fsm.over]

theorem Inv.alive {s : State} (h : Inv s) (hr : 0 < s.refs) : s.freed = false := by
  cases hf : s.freed with
  | false => rfl
  | true => have := h.freed hf; omega

theorem inv_shutdown {s : State} (h : Inv s) (d : Option Nat) (hu : s.user ≠ .gone) (hd : ∀ n ∈ d, n ∉ s.given) :
    Inv (s.shutdown d) ∧ (s.shutdown d).user = s.user ∧ (s.shutdown d).st ≠ .uninit ∧ (s.shutdown d).st ≠ .up := by
  have hr : 0 < s.refs := by
    have := h.refs
    have : s.user.refs = 1 := by cases hh : s.user <;> first | rfl | exact absurd hh hu
    omega
  have hf := h.alive hr
  obtain ⟨h1, h2, h3, h4, h5, h6, h7, h8, h9, h10, h11, h12, h13, h14⟩ := h
  have hnd : (s.given ++ d.toList).Nodup := by
    cases d with
    | none => simpa using h5
    | some n =>
      rw [List.nodup_append]
      refine ⟨h5, by simp, ?_⟩
      intro a ha b hb
      simp only [Option.toList_some, List.mem_singleton] at hb
      subst hb
      intro hab
      subst hab
      exact hd _ rfl ha
  have hp1 : (s.given ++ d.toList).Perm (s.ran ++ s.fsm.saved ++ (s.conts ++ d.toList)) := by
    rw [← List.append_assoc]; exact h4.append_right _
  have hp2 : (s.given ++ d.toList).Perm ((s.ran ++ d.toList) ++ s.fsm.saved ++ s.conts) := by
    refine (h4.append_right _).trans ?_
    rw [List.append_assoc, List.append_assoc, List.append_assoc, List.append_assoc]
    refine List.Perm.append_left _ ?_
    rw [← List.append_assoc]
    exact List.perm_append_comm.trans (by rw [← List.append_assoc])
  rcases s with ⟨st, fsm, tasks, out, conts, given, ran, user, refs, others, leaked, freed, bad, back⟩
  dsimp only at *
  subst hf
  subst h3
  unfold State.shutdown State.use
  cases st <;> cases fsm <;> simp only [Fsm.refs, Fsm.saved, Fsm.over] at * <;> simp at * <;> constructor <;>
    simp_all [Fsm.refs, Fsm.saved, Fsm.over, State.joinable]

theorem inv_step {s s' : State} (h : Inv s) (hs : Step s s') : Inv s' := by
  cases hs with
  | shutdown d hu hd => exact (inv_shutdown h d (by rw [hu]; decide) hd).1
  | dtorShut hu =>
    obtain ⟨hi, hus, h1, h2⟩ := inv_shutdown h none (by rw [hu]; decide) (by intro n hn; cases hn)
    exact { hi with
      refs := by rw [hi.refs, hus, hu]; rfl
      dtor := fun _ => ⟨h1, h2⟩
      gone := by intro hh; rcases hh with hh | hh <;> cases hh }
  | startFsm ok hst hf hu hl =>
    have hfr := h.alive (by have := h.refs; rw [hu] at this; simp only [User.refs] at this; omega)
    obtain ⟨h1, h2, h3, h4, h5, h6, h7, h8, h9, h10, h11, h12, h13, h14⟩ := h
    rcases s with ⟨st, fsm, tasks, out, conts, given, ran, user, refs, others, leaked, freed, bad, back⟩
    dsimp only at *
    subst hfr h3 hst hf hu
    unfold State.startFsm State.addRef State.release State.use
    cases ok <;> constructor <;> simp_all [Fsm.refs, Fsm.saved, Fsm.over, State.joinable, User.refs] <;> omega
  | initDone hst hf hu =>
    have hfr := h.alive (by have := h.refs; rw [hu] at this; simp only [User.refs] at this; omega)
    obtain ⟨h1, h2, h3, h4, h5, h6, h7, h8, h9, h10, h11, h12, h13, h14⟩ := h
    rcases s with ⟨st, fsm, tasks, out, conts, given, ran, user, refs, others, leaked, freed, bad, back⟩
    dsimp only at *
    subst hfr h3 hst hf hu
    unfold State.initDone State.use
    constructor <;> simp_all [Fsm.refs, Fsm.saved, Fsm.over, State.joinable, User.refs]
  | enqueue =>
    unfold State.enqueue
    split
    · rename_i hf
      exact { h with tasks := by intro hh; dsimp only at hh; rw [hf] at hh; rcases hh with hh | hh <;> cases hh }
    · exact h
  | task calls hf ht =>
    have ho : s.fsm.over = false := by rcases hf with hf | hf <;> rw [hf] <;> rfl
    refine { h with tasks := ?_, out := ?_, last := ?_ }
    · intro hh
      rcases hf with hf | hf <;> (have hh : s.fsm = .released ∨ s.fsm.over = true := hh; rw [hf] at hh; rcases hh with hh | hh <;> cases hh)
    · have := h.out
      unfold State.task
      dsimp only
      rw [List.count_append, this]
      cases calls <;> simp
    · intro hh
      have hh : s.fsm.over = true := hh
      rw [ho] at hh; cases hh
  | stopStep =>
    obtain ⟨h1, h2, h3, h4, h5, h6, h7, h8, h9, h10, h11, h12, h13, h14⟩ := h
    rcases s with ⟨st, fsm, tasks, out, conts, given, ran, user, refs, others, leaked, freed, bad, back⟩
    dsimp only at *
    subst h3
    unfold State.stopStep
    cases fsm <;> dsimp only
    case none => constructor <;> first | rfl | assumption
    case running => constructor <;> first | rfl | assumption
    case finished => constructor <;> first | rfl | assumption
    case stopped =>
      split
      · unfold State.release State.use
        constructor <;> simp_all [Fsm.refs, Fsm.saved, Fsm.over, State.joinable, User.refs] <;> grind
      · constructor <;> first | rfl | assumption
    case released =>
      constructor <;> simp_all [Fsm.refs, Fsm.saved, Fsm.over, State.joinable, User.refs]
    case told =>
      unfold State.use
      constructor <;> simp_all [Fsm.refs, Fsm.saved, Fsm.over, State.joinable, User.refs] <;> grind
    case swapped l =>
      unfold State.release State.use
      constructor <;> simp_all [Fsm.refs, Fsm.saved, Fsm.over, State.joinable, User.refs] <;> grind
    case dropped l =>
      constructor <;> simp_all [Fsm.refs, Fsm.saved, Fsm.over, State.joinable, User.refs]
  | join hu hj =>
    have hfr := h.alive (by have := h.refs; rw [hu] at this; simp only [User.refs] at this; omega)
    exact { h with bad := by unfold State.joinRet State.use; dsimp only; rw [h.bad, hfr]; rfl }
  | dtorJoin hu hj =>
    have hfr := h.alive (by have := h.refs; rw [hu] at this; simp only [User.refs] at this; omega)
    exact { h with
      refs := by have := h.refs; rw [hu] at this; exact this
      bad := by unfold State.joinRet State.use; dsimp only; rw [h.bad, hfr]; rfl
      dtor := fun _ => h.dtor (by rw [hu]; decide)
      gone := fun _ => hj }
  | dtorRel hu =>
    obtain ⟨h1, h2, h3, h4, h5, h6, h7, h8, h9, h10, h11, h12, h13, h14⟩ := h
    rcases s with ⟨st, fsm, tasks, out, conts, given, ran, user, refs, others, leaked, freed, bad, back⟩
    dsimp only at *
    subst h3 hu
    unfold State.release State.use
    constructor <;> simp_all [Fsm.saved, Fsm.over, State.joinable, User.refs] <;> grind
  | acquire hh =>
    have hr : 0 < s.refs := by
      have := h.refs
      rcases hh with hh | hh | hh | hh
      · have : s.user.refs = 1 := by cases hx : s.user <;> first | rfl | exact absurd hx hh
        omega
      · omega
      · rw [hh] at this; simp only [Fsm.refs] at this; omega
      · rw [hh] at this; simp only [Fsm.refs] at this; omega
    have hfr := h.alive hr
    exact { h with
      refs := by have := h.refs; unfold State.addRef State.use; dsimp only; omega
      freed := by intro hx; have hx : s.freed = true := hx; rw [hfr] at hx; cases hx
      bad := by unfold State.addRef State.use; dsimp only; rw [h.bad, hfr]; rfl
      live := fun _ => Nat.succ_pos _ }
  | drop ho =>
    have hr : 0 < s.refs := by have := h.refs; omega
    have hfr := h.alive hr
    exact { h with
      refs := by have := h.refs; unfold State.release State.use; dsimp only; omega
      freed := by
        unfold State.release State.use; dsimp only; rw [hfr]
        intro hx
        have : s.refs = 1 := by simpa using hx
        omega
      bad := by unfold State.release State.use; dsimp only; rw [h.bad, hfr]; rfl
      live := by
        unfold State.release State.use; dsimp only; rw [hfr]
        intro hx
        have : s.refs ≠ 1 := by simpa using hx
        omega }

theorem Run.inv {s : State} (h : Run s) : Inv s := by
  induction h with
  | init => exact inv_init
  | step _ hs ih => exact inv_step ih hs

end Braft.Shutdown
