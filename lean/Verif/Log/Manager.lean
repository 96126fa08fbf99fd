import Verif.Store.MemLog
/-
Model of LogManager (log_manager.cpp, log_manager.h): the in-memory tail of the log, the queue of the
disk thread, the storage behind it, snapshots and the applied id.

* The log storage is the array of entries that SegmentLogStorage and MemoryLogStorage were proved to be
  (C21, C23). Its calls may fail.
* Everything inside one critical section of LogManager::_mutex is one step. The disk thread's calls
  and the removal of entries from memory (which the code does after releasing the mutex) are steps of
  their own, so that they interleave with the others.
* `get_term` and `get_entry` release the mutex before they read the storage; here the read belongs to
  the same step.
* ConfigurationManager is modelled separately (ConfManager.lean), waiters in Log/Wait.lean.
* CHECK and LOG(FATAL) do not stop the program (the default of butil's crash_on_fatal_log).
-/
set_option linter.unusedVariables false
set_option linter.unusedSimpArgs false

namespace Braft.LogMgr
open Braft.MemLog (Ent Consec)

variable {α : Type}

/-- LogId (log_entry.h:33-41). -/
structure Id where
  index : Int
  term : Int
deriving DecidableEq, Repr

/-- LogId operator< (log_entry.h:64-69): by term, then by index. -/
def Id.lt (a b : Id) : Bool := if a.term = b.term then decide (a.index < b.index) else decide (a.term < b.term)

def entId (e : Ent α) : Id := ⟨e.index, e.term⟩

/-- std::min on LogId. -/
def Id.min (a b : Id) : Id := if b.lt a then b else a

/-! ## The storage -/

/-- A log storage: entry number `k` of `ents` has index `first + k`. -/
structure Sto (α : Type) where
  first : Int
  ents : List (Ent α)

def Sto.last (a : Sto α) : Int := a.first + a.ents.length - 1

def Sto.at (a : Sto α) (i : Int) : Option (Ent α) :=
  if a.first ≤ i then a.ents[(i - a.first).toNat]? else none

/-- LogStorage::get_term (storage.h:105-107): 0 outside. -/
def Sto.termAt (a : Sto α) (i : Int) : Int := match a.at i with | some e => e.term | none => 0

/-- A job of the disk thread (log_manager.cpp:153-249, 442-443): the entries of an append with the
number of its closure, or one of the internal closures. `want` is not in the code: it records the id of
the last entry of the log when the question was queued. -/
inductive Job (α : Type) where
  | append (es : List (Ent α)) (cid : Nat)
  | truncPrefix (kept : Int)
  | truncSuffix (kept term : Int)
  | reset (next : Int)
  | lastId (cid : Nat) (want : Id)

/-- The effect of a job's storage call when the call is within the storage's contract (C21, C23) and
succeeds; `none` if the call is outside the contract. -/
def Sto.run (a : Sto α) : Job α → Option (Sto α)
  | .append es _ =>
    if es.isEmpty then some a
    else if (es.head?.map (·.index)) = some (a.last + 1) then some ⟨a.first, a.ents ++ es⟩ else none
  | .truncPrefix k => if a.first ≤ k then some ⟨k, a.ents.drop (k - a.first).toNat⟩ else none
  | .truncSuffix k _ =>
    if a.first - 1 ≤ k ∧ k ≤ a.last then some ⟨a.first, a.ents.take (k + 1 - a.first).toNat⟩ else none
  | .reset n => if 0 < n then some ⟨n, []⟩ else none
  | .lastId _ _ => some a

def Sto.runAll (a : Sto α) : List (Job α) → Option (Sto α)
  | [] => some a
  | j :: js => match a.run j with | none => none | some a' => a'.runAll js

/-! ## State -/

/-- What became of closures, in order: number and whether the status was OK. -/
abbrev Ran := List (Nat × Bool)

/-- LogManager's fields (log_manager.h:190-222) and the storage. `round` is `last_id` of a running
disk_thread call (log_manager.cpp:551); `clears` are calls of clear_memory_logs that were started. -/
structure State (α : Type) where
  first : Int
  last : Int
  snap : Id
  virt : Id
  applied : Id
  disk : Id
  mem : List (Ent α)
  queue : List (Job α)
  store : Sto α
  err : Bool
  round : Option Id
  clears : List Id
  ran : Ran

/-- LogManager::init (log_manager.cpp:78-101). -/
def init (a : Sto α) : State α :=
  { first := a.first, last := a.last, snap := ⟨0, 0⟩, virt := ⟨0, 0⟩, applied := ⟨0, 0⟩,
    disk := ⟨a.last, a.termAt a.last⟩, mem := [], queue := [], store := a, err := false, round := none,
    clears := [], ran := [] }

/-- LogManager::get_entry_from_memory (log_manager.cpp:690-701). -/
def State.memAt (s : State α) (i : Int) : Option (Ent α) :=
  match s.mem.head?, s.mem.getLast? with
  | some f, some l => if f.index ≤ i ∧ i ≤ l.index then s.mem[(i - f.index).toNat]? else none
  | _, _ => none

/-- LogManager::unsafe_get_term (log_manager.cpp:703-728) and get_term (730-757). -/
def State.getTerm (s : State α) (i : Int) : Int :=
  if i = 0 then 0
  else if i = s.virt.index then s.virt.term
  else if i = s.snap.index then s.snap.term
  else if i > s.last ∨ i < s.first then 0
  else match s.memAt i with
    | some e => e.term
    | none => s.store.termAt i

/-- LogManager::get_entry (log_manager.cpp:759-779), without the error report. -/
def State.getEntry (s : State α) (i : Int) : Option (Ent α) :=
  if i > s.last ∨ i < s.first then none
  else match s.memAt i with
    | some e => some e
    | none => s.store.at i

/-- LogManager::last_log_id(false) (log_manager.cpp:190-197). -/
def State.lastLogId (s : State α) : Id :=
  if s.last ≥ s.first then ⟨s.last, s.getTerm s.last⟩ else s.snap

/-- LogManager::last_log_id(true) (log_manager.cpp:190-207), if it has to ask the disk thread; otherwise
(`last = snap.index`) the answer is `snap`. -/
def State.askLastId (s : State α) (cid : Nat) : State α :=
  { s with queue := s.queue ++ [.lastId cid s.lastLogId] }

/-- LogManager::truncate_prefix (log_manager.cpp:251-286). -/
def State.truncatePrefix (s : State α) (k : Int) : State α :=
  { s with
    mem := s.mem.dropWhile (fun e => decide (e.index < k))
    first := k
    last := if k > s.last then k - 1 else s.last
    queue := s.queue ++ [.truncPrefix k] }

/-- LogManager::reset (log_manager.cpp:288-305). -/
def State.resetLog (s : State α) (n : Int) : State α :=
  { s with mem := [], first := n, last := n - 1, queue := s.queue ++ [.reset n] }

/-- LogManager::unsafe_truncate_suffix (log_manager.cpp:307-332). Below the applied index it logs FATAL
and returns. -/
def State.truncateSuffix (s : State α) (k : Int) : State α :=
  if k < s.applied.index then s
  else
    let s1 := { s with mem := MemLog.popBack k s.mem, last := k }
    { s1 with queue := s1.queue ++ [.truncSuffix k (s1.getTerm k)] }

/-- The search for the first entry that is not in the local log (log_manager.cpp:372-378): the entries
from the first one whose term differs. -/
def State.unmatched (s : State α) : List (Ent α) → List (Ent α)
  | [] => []
  | e :: es => if s.getTerm e.index ≠ e.term then e :: es else s.unmatched es

/-- Outcome of check_and_resolve_conflict: the entries to append, or the closure is run at once. -/
inductive Check (α : Type) where
  | go (s : State α) (es : List (Ent α))
  | refuse            -- -1, the closure gets EINVAL
  | known             -- 1, the closure is run with OK

/-- LogManager::check_and_resolve_conflict (log_manager.cpp:334-405) for entries from a leader
(`front` has index `f`, `back` index `b`). -/
def State.check (s : State α) (es : List (Ent α)) (f b : Int) : Check α :=
  if f > s.last + 1 then .refuse
  else if b ≤ s.applied.index then .known
  else if f = s.last + 1 then .go { s with last := b } es
  else
    match s.unmatched es with
    | [] => .go s []
    | e :: rest =>
      let s1 := if e.index ≤ s.last then s.truncateSuffix (e.index - 1) else s
      .go { s1 with last := b } (e :: rest)

/-- The end of LogManager::append_entries (log_manager.cpp:438-446). -/
def State.enqueue (s : State α) (es : List (Ent α)) (cid : Nat) : State α :=
  { s with mem := s.mem ++ es, queue := s.queue ++ [.append es cid] }

/-- LogManager::append_entries (log_manager.cpp:407-447) with entries from a leader. -/
def State.append (s : State α) (es : List (Ent α)) (cid : Nat) : State α :=
  if s.err then { s with ran := s.ran ++ [(cid, false)] }
  else match es.head?, es.getLast? with
    | some f, some b =>
      match s.check es f.index b.index with
      | .refuse => { s with ran := s.ran ++ [(cid, false)] }
      | .known => { s with ran := s.ran ++ [(cid, true)] }
      | .go s' es' => s'.enqueue es' cid
    | _, _ => s.enqueue [] cid

/-- The entries that an append really adds to the log (log_manager.cpp:363-400, 407-447); used to state
histories. -/
def State.newOf (s : State α) (es : List (Ent α)) : List (Ent α) :=
  if s.err then []
  else match es.head?, es.getLast? with
    | some f, some b =>
      match s.check es f.index b.index with
      | .go _ es' => es'
      | _ => []
    | _, _ => []

/-- Numbering the entries of the leader's user (log_manager.cpp:337-343). -/
def number (i : Int) : List (Int × α) → List (Ent α)
  | [] => []
  | (t, v) :: r => ⟨i, t, v⟩ :: number (i + 1) r

/-- LogManager::append_entries with entries from the leader itself (log_manager.cpp:337-345). -/
def State.appendLeader (s : State α) (vs : List (Int × α)) (cid : Nat) : State α :=
  if s.err then { s with ran := s.ran ++ [(cid, false)] }
  else ({ s with last := s.last + vs.length }).enqueue (number (s.last + 1) vs) cid

/-- LogManager::set_snapshot (log_manager.cpp:622-680) for a snapshot with the id `m`. -/
def State.setSnapshot (s : State α) (m : Id) : State α :=
  if m.index ≤ s.snap.index then s
  else
    let term := s.getTerm m.index
    let s1 := { s with snap := m, applied := if s.applied.lt m then m else s.applied }
    if term = 0 then { s1 with virt := m }.truncatePrefix (m.index + 1)
    else if term = m.term then
      if s.snap.index > 0 then { s1 with virt := s.snap }.truncatePrefix (s.snap.index + 1) else s1
    else { s1 with virt := m }.resetLog (m.index + 1)

/-- LogManager::check_consistency (log_manager.cpp:947-968), called by NodeImpl::init after the snapshot was
loaded (node.cpp:582-588). -/
def State.consistent (s : State α) : Bool :=
  if s.snap = ⟨0, 0⟩ then decide (s.first = 1)
  else decide (s.snap.index ≥ s.first - 1) && decide (s.snap.index ≤ s.last)

/-- LogManager::clear_bufferred_logs (log_manager.cpp:682-688). -/
def State.clearBuffered (s : State α) : State α :=
  if s.snap.index ≠ 0 then { s with virt := s.snap }.truncatePrefix (s.snap.index + 1) else s

/-- LogManager::set_applied_id (log_manager.cpp:812-821); the clearing itself is `clear`. -/
def State.setApplied (s : State α) (i : Id) : State α :=
  if i.lt s.applied then s else { s with applied := i, clears := s.clears ++ [s.disk.min i] }

/-- LogManager::set_disk_id (log_manager.cpp:801-810). -/
def State.setDisk (s : State α) (i : Id) : State α :=
  if i.lt s.disk then s else { s with disk := i, clears := s.clears ++ [i.min s.applied] }

/-- One step of LogManager::clear_memory_logs(c) (log_manager.cpp:125-146): the front entry is removed
unless its id is greater. -/
def State.clear (s : State α) (c : Id) : State α :=
  match s.mem with
  | [] => s
  | e :: es => if c.lt (entId e) then s else { s with mem := es }

/-! ### The disk thread -/

/-- Start of disk_thread (log_manager.cpp:543-553). -/
def State.roundStart (s : State α) : State α := { s with round := some s.disk }

/-- End of disk_thread (log_manager.cpp:616-618). -/
def State.roundEnd (s : State α) (l : Id) : State α := { s.setDisk l with round := none }

/-- The entries of a list of append jobs. -/
def jobEnts : List (Job α) → List (Ent α)
  | [] => []
  | .append es _ :: js => es ++ jobEnts js
  | _ :: js => jobEnts js

def jobCids : List (Job α) → List Nat
  | [] => []
  | .append _ c :: js => c :: jobCids js
  | _ :: js => jobCids js

/-- The last id after an append of which `n` entries were stored (log_manager.cpp:469-471). -/
def lastOf (l : Id) (es : List (Ent α)) (n : Nat) : Id :=
  match (es.take n).getLast? with | some e => entId e | none => l

/-- AppendBatcher::flush (log_manager.cpp:501-519, 449-480) of the append jobs `js`, which are removed
from the queue. `n` entries are stored, the storage failed if that is not all of them. `late`: another
thread reports an error between the write and the closures. -/
def State.flush (s : State α) (js rest : List (Job α)) (l : Id) (n : Nat) (late : Bool) : State α :=
  let es := jobEnts js
  let s1 : State α :=
    if s.err then s
    else { s with store := ⟨s.store.first, s.store.ents ++ es.take n⟩,
                  err := decide (n ≠ es.length), round := some (lastOf l es n) }
  let s2 := { s1 with queue := rest, err := s1.err || late }
  { s2 with ran := s2.ran ++ (jobCids js).map (fun c => (c, !s2.err)) }

/-- disk_thread for a job without entries (log_manager.cpp:566-613) whose storage call succeeds. The
closure of an append without entries is run with the status it has: OK. -/
def State.execOk (s : State α) (j : Job α) (rest : List (Job α)) (l : Id) : State α :=
  let s1 := { s with queue := rest, store := (s.store.run j).getD s.store }
  match j with
  | .append _ c => { s1 with ran := s1.ran ++ [(c, true)] }
  | .truncSuffix k t => { s1 with round := some ⟨k, t⟩ }
  | _ => s1

/-- The same when the storage call fails: the error is reported; the storage is left in some state. -/
def State.execFails (s : State α) (a : Sto α) (rest : List (Job α)) : State α :=
  { s with queue := rest, store := a, err := true }

end Braft.LogMgr
