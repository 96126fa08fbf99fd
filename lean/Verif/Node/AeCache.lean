/-
Model of NodeImpl::AppendEntriesCache (src/braft/node.h:396-437, node.cpp:2908-3006 and 3008-3200): AppendEntries
requests that arrive before their predecessors are parked and handed over again later.
A request is represented by its prev_log_index, its number of entries and the time it was received. Handing over
means start_to_handle: a bthread runs handle_append_entries_request on each request of the list, in list order, or,
if the bthread cannot be started, every request of the list is answered with EINVAL; both end in an answer.
The results of bthread_timer_add and bthread_timer_del are part of each step. A timer stays in `timers` from
bthread_timer_add until its callback has run or bthread_timer_del has returned 0. CHECK failures set `aborted`.
-/
set_option linter.unusedSectionVars false
set_option linter.unusedSimpArgs false
set_option linter.unusedVariables false

namespace Braft.AeCache

/-- AppendEntriesRpc (node.h:396-402); `id` is a ghost: the number of requests cached before. -/
structure Rpc where
  id : Nat
  prev : Int
  n : Nat
  recv : Int
deriving DecidableEq, Repr

/-- The index of the last entry of a request. -/
def Rpc.last (r : Rpc) : Int := r.prev + r.n

/-- AppendEntriesCacheTimerArg (node.cpp:2981-2986); `id` is the bthread_timer_t. `head` is a ghost: the request
that was the oldest one when the timer was started. -/
structure Timer where
  id : Nat
  cacheVer : Nat
  timerVer : Nat
  start : Int
  head : Nat
deriving DecidableEq, Repr

/-- The fields of AppendEntriesCache (node.h:431-436). `map` is ordered by prev_log_index. -/
structure Cache where
  map : List Rpc
  queue : List Rpc
  timer : Option Nat
  ver : Nat
  timerVer : Nat
deriving DecidableEq, Repr

/-- The constructor (node.h:412-414): the version passed in is not used. -/
def Cache.new (version : Nat) : Cache := ⟨[], [], none, 0, 0⟩

/-- The rest of the node, and the history: the lists handed over, the requests cached. -/
structure Env where
  timers : List Timer
  nextT : Nat
  out : List (List Rpc)
  failed : Bool
deriving DecidableEq, Repr

/-- AppendEntriesCache::stop_timer (node.cpp:3173-3182); `del`: bthread_timer_del returned 0. -/
def stopTimer (c : Cache) (e : Env) (del : Bool) : Cache × Env :=
  match c.timer with
  | none => (c, e)
  | some t =>
    let c1 := { c with timerVer := c.timerVer + 1 }
    if del then ({ c1 with timer := none }, { e with timers := e.timers.filter (fun x => decide (x.id ≠ t)) })
    else (c1, e)

/-- AppendEntriesCache::start_timer (node.cpp:3151-3171); `ok`: bthread_timer_add returned 0. -/
def startTimer (c : Cache) (e : Env) (ok : Bool) : Cache × Env × Bool :=
  let c1 := { c with timerVer := c.timerVer + 1 }
  match ok, c.queue.head? with
  | true, some h =>
    ({ c1 with timer := some e.nextT },
      { e with timers := ⟨e.nextT, c.ver, c.timerVer + 1, h.recv, h.id⟩ :: e.timers, nextT := e.nextT + 1 }, true)
  | _, _ => (c1, { e with failed := true }, false)

/-- AppendEntriesCache::clear (node.cpp:3108-3121). -/
def clear (c : Cache) (e : Env) (del : Bool) : Cache × Env :=
  let r := stopTimer c e del
  ({ r.1 with map := [], queue := [] }, { r.2 with out := r.2.out ++ [c.queue] })

/-- Lines 3023-3049 of node.cpp: an overlap with the cached neighbours. -/
def needClear (m : List Rpc) (r : Rpc) : Bool :=
  (match (m.takeWhile (fun x => decide (x.prev < r.prev))).getLast? with
    | some p => decide (p.prev + p.n > r.prev)
    | none => false) ||
  (match (m.dropWhile (fun x => decide (x.prev < r.prev))).head? with
    | some q => decide (q.prev < r.prev + r.n)
    | none => false)

/-- std::map::insert (node.cpp:3052): nothing happens if the key is there. -/
def insert (m : List Rpc) (r : Rpc) : List Rpc :=
  if m.any (fun x => decide (x.prev = r.prev)) then m
  else m.takeWhile (fun x => decide (x.prev < r.prev)) ++ r :: m.dropWhile (fun x => decide (x.prev < r.prev))

/-- RemoveFromList for each request of `rs`. -/
def without (q rs : List Rpc) : List Rpc := q.filter (fun r => !rs.any (fun x => decide (x.id = r.id)))

/-- Lines 3062-3078 of node.cpp: requests are taken from the end of the map until `max` are left. -/
def evict (max : Nat) (c : Cache) (e : Env) : Cache × Env :=
  if c.map.length > max then
    let rs := (c.map.drop max).reverse
    ({ c with map := c.map.take max, queue := without c.queue rs }, { e with out := e.out ++ [rs] })
  else (c, e)

/-- AppendEntriesCache::store (node.cpp:3022-3079); `ok`, `del`: results of the timer calls. It always returns
true. -/
def store (max : Nat) (c : Cache) (e : Env) (r : Rpc) (ok del : Bool) : Cache × Env :=
  let a := if needClear c.map r then clear c e del else (c, e)
  let c2 : Cache := { a.1 with queue := a.1.queue ++ [r], map := insert a.1.map r }
  if c2.map.length = 1 then
    let b := startTimer c2 a.2 ok
    if b.2.2 then evict max b.1 b.2.1 else clear b.1 b.2.1 del
  else evict max c2 a.2

/-- The loop of process_runable_rpcs (node.cpp:3085-3099): what is taken and what stays. -/
def runable : Int → List Rpc → List Rpc × List Rpc
  | _, [] => ([], [])
  | last, r :: rs =>
    if r.prev > last then ([], r :: rs)
    else
      let p := runable (r.prev + r.n) rs
      (r :: p.1, p.2)

/-- AppendEntriesCache::process_runable_rpcs (node.cpp:3081-3106). -/
def process (c : Cache) (e : Env) (last : Int) (del : Bool) : Cache × Env :=
  let p := runable last c.map
  let c1 := { c with map := p.2, queue := without c.queue p.1 }
  let e1 := if p.1.isEmpty then e else { e with out := e.out ++ [p.1] }
  if c1.map.isEmpty then stopTimer c1 e1 del else (c1, e1)

/-- do_handle_append_entries_cache_timedout (node.cpp:3184-3200), the version being the current one. -/
def timedout (c : Cache) (e : Env) (start : Int) (ok del : Bool) : Cache × Env :=
  match c.queue.head? with
  | none => (c, e)
  | some h =>
    if h.recv ≤ start then clear c e del
    else
      let b := startTimer c e ok
      if b.2.2 then (b.1, b.2.1) else clear b.1 b.2.1 del

/-- The node's view: `_append_entries_cache`, `_append_entries_cache_version` (node.h:527-528). `stored` is the
history of cached requests. -/
structure State where
  cache : Option Cache
  ver : Nat
  env : Env
  stored : List Rpc
  aborted : Bool
deriving DecidableEq, Repr

def State.init : State := ⟨none, 0, ⟨[], 0, [], false⟩, [], false⟩

/-- `if (cache->empty()) delete` (node.cpp:2940-2943, 2997-3000). -/
def dropEmpty (c : Cache) : Option Cache := if c.map.isEmpty then none else some c

/-- handle_out_of_order_append_entries (node.cpp:2908-2933) with the cache enabled; the Boolean is its result.
`last` is the local last log index, `n` the number of entries. -/
def State.outOfOrder (max : Nat) (s : State) (last prev : Int) (n : Nat) (recv : Int) (ok del : Bool) :
    State × Bool :=
  if last ≥ prev ∨ n = 0 then (s, false)
  else
    let c0 := s.cache.getD (Cache.new (s.ver + 1))
    let r : Rpc := ⟨s.stored.length, prev, n, recv⟩
    let x := store max c0 s.env r ok del
    ({ s with cache := some x.1, ver := if s.cache.isNone then s.ver + 1 else s.ver, env := x.2,
              stored := s.stored ++ [r] }, true)

/-- check_append_entries_cache (node.cpp:2935-2944). -/
def State.check (s : State) (last : Int) (del : Bool) : State :=
  match s.cache with
  | none => s
  | some c =>
    if c.map.isEmpty then { s with aborted := true }
    else
      let x := process c s.env last del
      { s with cache := dropEmpty x.1, env := x.2 }

/-- clear_append_entries_cache (node.cpp:2946-2953). -/
def State.clearAll (s : State) (del : Bool) : State :=
  match s.cache with
  | none => s
  | some c => { s with cache := none, env := (clear c s.env del).2 }

/-- handle_append_entries_cache_timedout (node.cpp:2988-3006) for the timer `t`. -/
def State.fire (s : State) (t : Timer) (ok del : Bool) : State :=
  let e := { s.env with timers := s.env.timers.filter (fun x => decide (x.id ≠ t.id)) }
  match s.cache with
  | none => { s with env := e }
  | some c =>
    if t.cacheVer ≠ c.ver then { s with env := e }
    else if t.timerVer ≠ c.timerVer then { s with env := e, cache := dropEmpty c }
    else if c.map.isEmpty then { s with env := e, aborted := true }
    else
      let x := timedout c e t.start ok del
      { s with cache := dropEmpty x.1, env := x.2 }

/-- How handle_append_entries_request ends: the request is parked; it is answered with success = false (prev_log_term
differs); it is an empty request answered with success; its entries go to the log manager, whose closure answers. -/
inductive Outcome where
  | cached | rejected | heartbeat | appended
deriving DecidableEq, Repr

/-- The part of handle_append_entries_request that touches the cache (node.cpp:2465-2573), after the term, leader
and snapshot checks. `fits`: the local term at prev_log_index equals prev_log_term; `last`: the local last log
index; the other arguments as above. -/
def State.request (max : Nat) (s : State) (fromCache fits : Bool) (last prev : Int) (n : Nat) (recv : Int)
    (ok del : Bool) : State × Outcome :=
  if !fits then
    if !fromCache && (s.outOfOrder max last prev n recv ok del).2 then
      ((s.outOfOrder max last prev n recv ok del).1, .cached)
    else (s, .rejected)
  else if n = 0 then (s, .heartbeat)
  else (s.check (prev + n) del, .appended)

/-- Everything that can happen to the cache, in any order. After a CHECK failure nothing more happens. -/
inductive Hist (max : Nat) : State → Prop where
  | init : Hist max State.init
  | request {s} (h : Hist max s) (hn : s.aborted = false) (fromCache fits : Bool) (last prev : Int) (n : Nat)
      (recv : Int) (ok del : Bool) : Hist max (s.request max fromCache fits last prev n recv ok del).1
  | clearAll {s} (h : Hist max s) (hn : s.aborted = false) (del : Bool) : Hist max (s.clearAll del)
  | fire {s} (h : Hist max s) (hn : s.aborted = false) (t : Timer) (ht : t ∈ s.env.timers) (ok del : Bool) :
      Hist max (s.fire t ok del)

end Braft.AeCache
