import Verif.Raft.Exec
/-
Concrete executions of the cluster model, checked by evaluation. They show that the hypotheses of
the theorems of `Verif/Props/Raft.lean` are met, and are the counterexamples stated there.
-/
namespace Braft.Raft.Traces

abbrev A := Act Nat Nat
abbrev S := Sys Nat Nat

/-- A group of three. -/
def c3 : Conf Nat := { peers := [1, 2, 3] }
def ce (t : Nat) (c : Conf Nat) : Entry Nat Nat := ⟨t, .conf c⟩
def da (t d : Nat) : Entry Nat Nat := ⟨t, .data d⟩

def run (as : List A) : S := runActs c3 (initSys c3) as

/-- 1 is elected by 1 and 2 in term 2, appends 7, replicates to 2, commits and both apply. -/
def first : List A :=
  [.electStart 1, .electSend 1 [], .voteBegin 2 2 1 (0, 0), .voteEnd 2 ⟨2, 1, (0, 0), 1, (0, 0)⟩ true true,
   .becomeLeader 1 [1, 2], .propose 1 [7], .sendAE 1 0 2 0,
   .recvAE 2 2 0 0 [ce 2 c3, da 2 7] 0 true false, .disk 2, .disk 2, .disk 2,
   .disk 1, .disk 1, .disk 1, .disk 1, .commit 1 2 [1, 2], .apply 1, .apply 1,
   .sendAE 1 2 0 2, .recvAE 2 2 2 2 [] 2 true false, .apply 2, .apply 2]

/-- Then 1 restarts, and 2 is elected by 2 and 3 in term 3. -/
def second : List A :=
  first ++ [.crash 1, .electStart 2, .electSend 2 [ce 2 c3, da 2 7], .voteBegin 3 3 2 (2, 2),
   .voteEnd 3 ⟨3, 2, (2, 2), 1, (0, 0)⟩ true true, .becomeLeader 2 [2, 3]]

def c4 : Conf Nat := { peers := [1, 2, 3, 4] }

/-- Or, after `first`, 1 adds peer 4; 2, 3 and 4 get the log, and 4 is elected in term 3 by
3 and 4 and 2. -/
def member : List A :=
  first ++ [.changeConf 1 c4, .disk 1, .disk 1, .sendAE 1 0 3 2,
   .recvAE 4 2 0 0 [ce 2 c3, da 2 7, ce 2 c4] 2 true false,
   .recvAE 2 2 0 0 [ce 2 c3, da 2 7, ce 2 c4] 2 true false,
   .disk 4, .disk 4, .disk 4, .disk 4, .disk 2, .disk 2, .commit 1 3 [1, 2, 4], .apply 1,
   .electStart 4, .electSend 4 [ce 2 c3, da 2 7, ce 2 c4],
   .voteBegin 2 3 4 (2, 3), .voteEnd 2 ⟨3, 4, (2, 3), 2, (2, 3)⟩ true true, .voteBegin 3 3 4 (2, 3), .voteEnd 3 ⟨3, 4, (2, 3), 1, (0, 0)⟩ true true,
   .becomeLeader 4 [2, 3, 4]]

theorem first_ok : okActs ⟨true, true, true, true, true⟩ c3 (initSys c3) first = true := by decide
theorem second_ok : okActs ⟨true, true, true, true, true⟩ c3 (initSys c3) second = true := by decide
theorem member_ok : okActs ⟨true, true, true, true, true⟩ c3 (initSys c3) member = true := by decide

/-- 2 starts handling the vote request of 3 for term 3 in term 2, with an empty log; while it
waits, it accepts and acknowledges the log of leader 1, which commits and applies it; then 2
grants the vote, and 3 becomes leader without those entries and applies others. -/
def race : List A :=
  [.electStart 1, .electSend 1 [], .voteBegin 2 2 1 (0, 0), .voteEnd 2 ⟨2, 1, (0, 0), 1, (0, 0)⟩ true true,
   .becomeLeader 1 [1, 2], .propose 1 [7],
   .electStart 3, .electStart 3, .electSend 3 [], .voteBegin 2 3 3 (0, 0),
   .sendAE 1 0 2 0, .recvAE 2 2 0 0 [ce 2 c3, da 2 7] 0 true false, .disk 2, .disk 2, .disk 2,
   .disk 1, .disk 1, .disk 1, .disk 1, .commit 1 2 [1, 2], .apply 1, .apply 1,
   .voteEnd 2 ⟨3, 3, (0, 0), 2, (0, 0)⟩ true true, .becomeLeader 3 [3, 2], .propose 3 [8],
   .sendAE 3 0 2 0, .recvAE 2 3 0 0 [ce 3 c3, da 3 8] 0 true false,
   .disk 2, .disk 2, .disk 2, .disk 2, .disk 2, .disk 3, .disk 3, .disk 3, .disk 3,
   .commit 3 2 [3, 2], .apply 3, .apply 3]

theorem race_ok : okActs ⟨false, true, true, true, true⟩ c3 (initSys c3) race = true := by decide

/-- 1 fails to persist its term when it stands for election, is elected by 2 and 3 all the same,
restarts without that term, and is elected in the same term again. -/
def lost : List A :=
  [.electStart 1, .electFail 1 [], .voteBegin 2 2 1 (0, 0), .voteEnd 2 ⟨2, 1, (0, 0), 1, (0, 0)⟩ true true,
   .voteBegin 3 2 1 (0, 0), .voteEnd 3 ⟨2, 1, (0, 0), 1, (0, 0)⟩ true true, .becomeLeader 1 [2, 3], .propose 1 [7],
   .sendAE 1 0 2 0, .recvAE 2 2 0 0 [ce 2 c3, da 2 7] 0 true false,
   .crash 1, .electStart 1, .electSend 1 [], .becomeLeader 1 [2, 3], .propose 1 [8],
   .sendAE 1 0 2 0, .recvAE 3 2 0 0 [ce 2 c3, da 2 8] 0 true false]

theorem lost_ok : okActs ⟨true, false, true, true, true⟩ c3 (initSys c3) lost = true := by decide

/-- 2 leads term 2 and replicates its first entry to 1 and 3. Then 1 stands for term 3 and fails
to persist it; the last leader, 2, grants its vote, so 1 counts its own vote as well and leads
term 3. 1 restarts in term 2 and votes for 3, which leads term 3, too. -/
def twice : List A :=
  [.electStart 2, .electSend 2 [], .voteBegin 3 2 2 (0, 0), .voteEnd 3 ⟨2, 2, (0, 0), 1, (0, 0)⟩ true true,
   .becomeLeader 2 [2, 3], .sendAE 2 0 1 0,
   .recvAE 1 2 0 0 [ce 2 c3] 0 true false, .recvAE 3 2 0 0 [ce 2 c3] 0 true false, .disk 1, .disk 3,
   .electStart 1, .electFail 1 [ce 2 c3], .voteBegin 2 3 1 (2, 1), .voteEnd 2 ⟨3, 1, (2, 1), 2, (2, 1)⟩ true true,
   .becomeLeader 1 [1, 2], .crash 1,
   .electStart 3, .electSend 3 [ce 2 c3], .voteBegin 1 3 3 (2, 1), .voteEnd 1 ⟨3, 3, (2, 1), 2, (2, 1)⟩ true true,
   .becomeLeader 3 [1, 3]]

theorem twice_ok : okActs ⟨true, false, true, true, true⟩ c3 (initSys c3) twice = true := by decide

/-- What `first` committed. -/
def k2 : Log Nat Nat := [ce 2 c3, da 2 7]

/-- After `first`, 1 takes a snapshot and installs it on 3, which had missed everything; then 1
replicates one more entry to 3, they commit it, and 3 restarts from its snapshot. -/
def install : List A :=
  first ++ [.saveSnap 1 2, .sendIS 1, .recvIS 3 2 k2 true, .copied 3, .loaded 3, .disk 3,
   .propose 1 [9], .sendAE 1 2 1 2, .recvAE 3 2 2 2 [da 2 9] 2 true false, .disk 3, .disk 3,
   .disk 1, .disk 1, .commit 1 3 [1, 3], .apply 1,
   .sendAE 1 3 0 3, .recvAE 3 2 3 2 [] 3 true false, .apply 3, .crash 3]

theorem install_ok : okActs ⟨true, true, true, true, true⟩ c3 (initSys c3) install = true := by
  decide

def c5 : Conf Nat := { peers := [1, 2, 3, 4, 5] }
def k5 : Log Nat Nat := [ce 2 c3, ce 2 c4, ce 2 c5]

/-- 2 leads term 2 and adds 4 and 5; 1 has received nothing yet. 1 begins to install the snapshot
of 2, which has the new configuration, and stands for election meanwhile: it counts votes in the
old configuration. The snapshot is loaded before it asks for votes. 2 votes for it; 3, 4 and 5
elect 3 in the same term. -/
def inst : List A :=
  [.electStart 2, .electSend 2 [], .voteBegin 3 2 2 (0, 0),
   .voteEnd 3 ⟨2, 2, (0, 0), 1, (0, 0)⟩ true true, .becomeLeader 2 [2, 3],
   .disk 2, .disk 2, .sendAE 2 0 1 0, .recvAE 3 2 0 0 [ce 2 c3] 0 true false, .disk 3, .disk 3,
   .commit 2 1 [2, 3],
   .changeConf 2 c4, .disk 2, .disk 2, .sendAE 2 1 1 1, .recvAE 3 2 1 2 [ce 2 c4] 1 true false,
   .disk 3, .disk 3, .sendAE 2 0 2 1, .recvAE 4 2 0 0 [ce 2 c3, ce 2 c4] 1 true false,
   .disk 4, .disk 4, .disk 4, .commit 2 2 [2, 3, 4],
   .changeConf 2 c5, .disk 2, .disk 2, .sendAE 2 2 1 2, .recvAE 3 2 2 2 [ce 2 c5] 2 true false,
   .disk 3, .disk 3, .recvAE 4 2 2 2 [ce 2 c5] 2 true false, .disk 4, .disk 4,
   .commit 2 3 [2, 3, 4], .apply 2, .apply 2, .apply 2, .saveSnap 2 3, .sendIS 2,
   .recvIS 1 2 k5 true, .copied 1, .electStart 1, .loaded 1, .disk 1, .electSend 1 k5,
   .voteBegin 2 3 1 (2, 3), .voteEnd 2 ⟨3, 1, (2, 3), 2, (2, 3)⟩ true true,
   .becomeLeader 1 [1, 2],
   .electStart 3, .electSend 3 k5, .voteBegin 4 3 3 (2, 3),
   .voteEnd 4 ⟨3, 3, (2, 3), 2, (2, 3)⟩ true true, .voteBegin 5 3 3 (2, 3),
   .voteEnd 5 ⟨3, 3, (2, 3), 1, (0, 0)⟩ true true, .becomeLeader 3 [3, 4, 5]]

theorem inst_ok : okActs ⟨true, true, false, true, true⟩ c3 (initSys c3) inst = true := by
  decide +kernel

def k3 : Log Nat Nat := [ce 3 c3, da 3 6]

/-- 1 leads term 2 and proposes three entries that its disk does not get to write yet. 2 leads
term 3 and installs a snapshot on 1, whose log now ends at the snapshot. 1 leads term 4 without
waiting for its disk, and the stable closures of term 2, running now, count as its acknowledgement
of entries of term 4 it has not written. They are committed with the acknowledgement of 3; 1
restarts without them, and 2 leads term 5 without them. -/
def early : List A :=
  [.electStart 1, .electSend 1 [], .voteBegin 2 2 1 (0, 0),
   .voteEnd 2 ⟨2, 1, (0, 0), 1, (0, 0)⟩ true true, .becomeLeader 1 [1, 2], .propose 1 [7, 8, 9],
   .electStart 2, .electSend 2 [], .voteBegin 3 3 2 (0, 0),
   .voteEnd 3 ⟨3, 2, (0, 0), 1, (0, 0)⟩ true true, .becomeLeader 2 [2, 3], .propose 2 [6],
   .disk 2, .disk 2, .disk 2, .disk 2, .sendAE 2 0 2 0,
   .recvAE 3 3 0 0 [ce 3 c3, da 3 6] 0 true false, .disk 3, .disk 3, .disk 3,
   .commit 2 2 [2, 3], .apply 2, .apply 2, .saveSnap 2 2, .sendIS 2,
   .recvIS 1 3 k3 true, .copied 1, .loaded 1,
   .electStart 1, .electSend 1 k3, .voteBegin 3 4 1 (3, 2),
   .voteEnd 3 ⟨4, 1, (3, 2), 3, (3, 2)⟩ true true, .becomeLeader 1 [1, 3], .propose 1 [5],
   .disk 1, .disk 1, .disk 1, .disk 1, .disk 1, .disk 1,
   .sendAE 1 2 2 0, .recvAE 3 4 2 3 [ce 4 c3, da 4 5] 0 true false, .disk 3, .disk 3, .disk 3,
   .commit 1 4 [1, 3], .apply 1, .apply 1, .crash 1,
   .raiseTerm 2 4 true, .electStart 2, .electSend 2 k3, .voteBegin 1 5 2 (3, 2),
   .voteEnd 1 ⟨5, 2, (3, 2), 4, (3, 2)⟩ true true, .becomeLeader 2 [1, 2]]

theorem early_ok : okActs ⟨true, true, true, true, false⟩ c3 (initSys c3) early = true := by
  decide +kernel

/-- 2 leads term 2 in a group of five and replicates nothing; 1 leads term 3; 2 leads term 4 and
commits its two entries with 3 and 4. It takes a snapshot after applying the first one and sends it
to 5, which fails to persist term 4, stores the snapshot and restarts. It is in term 3 now, accepts
the entry that leader 1 of term 3 has at index 1, and answers success without storing it. -/
def stale : List A :=
  [.electStart 2, .electSend 2 [], .voteBegin 3 2 2 (0, 0),
   .voteEnd 3 ⟨2, 2, (0, 0), 1, (0, 0)⟩ true true, .voteBegin 4 2 2 (0, 0),
   .voteEnd 4 ⟨2, 2, (0, 0), 1, (0, 0)⟩ true true, .becomeLeader 2 [2, 3, 4],
   .disk 2, .disk 2,
   .raiseTerm 1 2 true, .electStart 1, .electSend 1 [], .voteBegin 3 3 1 (0, 0),
   .voteEnd 3 ⟨3, 1, (0, 0), 2, (0, 0)⟩ true true, .voteBegin 4 3 1 (0, 0),
   .voteEnd 4 ⟨3, 1, (0, 0), 2, (0, 0)⟩ true true, .becomeLeader 1 [1, 3, 4],
   .sendAE 1 0 1 0,
   .raiseTerm 2 3 true, .electStart 2, .electSend 2 [ce 2 c5], .voteBegin 3 4 2 (2, 1),
   .voteEnd 3 ⟨4, 2, (2, 1), 3, (0, 0)⟩ true true, .voteBegin 4 4 2 (2, 1),
   .voteEnd 4 ⟨4, 2, (2, 1), 3, (0, 0)⟩ true true, .becomeLeader 2 [2, 3, 4],
   .disk 2, .disk 2, .sendAE 2 0 2 0,
   .recvAE 3 4 0 0 [ce 2 c5, ce 4 c5] 0 true false, .disk 3, .disk 3, .disk 3,
   .recvAE 4 4 0 0 [ce 2 c5, ce 4 c5] 0 true false, .disk 4, .disk 4, .disk 4,
   .commit 2 2 [2, 3, 4], .apply 2, .saveSnap 2 1, .sendIS 2,
   .recvIS 5 4 [ce 2 c5] false, .copied 5, .crash 5,
   .recvAE 5 3 0 0 [ce 3 c5] 0 true false]

theorem stale_ok : okActs ⟨true, true, true, false, true⟩ c5 (initSys c5) stale = true := by
  decide +kernel

end Braft.Raft.Traces
