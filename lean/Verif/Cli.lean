import Verif.Peer
import Verif.Registry
/-
Model of the command line service: CliServiceImpl (cli_service.cpp:25-348) and the search for the leader on the client's side
(cli.cpp:27-67).

* A membership call is two steps of the node: list_peers (cli_service.cpp:62) and add_peer, remove_peer or change_peers
  (cli_service.cpp:80, 133, 322), each under the node's mutex; between them the node's configuration may change. What the
  node does with the call is in Node/ConfCtx.lean.
* Peers in requests are parsed (C38).
-/
set_option linter.unusedVariables false

namespace Braft.Cli
open Braft.NodeManager

variable {G P : Type} [DecidableEq G] [DecidableEq P]

/-- The errors of get_node. -/
inductive Err where
  | enoent
  | einval
  | eacces
deriving DecidableEq, Repr

/-- CliServiceImpl::get_node (cli_service.cpp:248-281). `peer`: peer_id, none if it is empty. -/
def getNode (m : Maps G P) (disabled : Node G P → Bool) (g : G) (peer : Option P) : Except Err (Node G P) :=
  let found : Except Err (Node G P) :=
    match peer with
    | some p =>
      match NodeManager.get m g p with
      | none => .error .enoent
      | some n => .ok n
    | none =>
      match byGroup m g with
      | [] => .error .enoent
      | [n] => .ok n
      | _ => .error .einval
  match found with
  | .error e => .error e
  | .ok n => if disabled n then .error .eacces else .ok n

/-- CliServiceImpl::get_leader (cli_service.cpp:211-246): the first node that knows a leader. `leader`: leader_id(), none if it
is empty. The result is none for a failure. -/
def getLeader (m : Maps G P) (leader : Node G P → Option P) (g : G) (peer : Option P) : Option P :=
  let nodes := match peer with
    | some p => (NodeManager.get m g p).toList
    | none => byGroup m g
  nodes.findSome? leader

/-- add_peer_returned (cli_service.cpp:25-48): old_peers and new_peers of the answer. `listed`: what list_peers gave. -/
def addReturned (listed : List PeerId) (p : PeerId) : List PeerId × List PeerId :=
  (listed, if listed.any (fun x => PeerId.eqv x p) then listed else listed ++ [p])

/-- remove_peer_returned (cli_service.cpp:83-102). -/
def removeReturned (listed : List PeerId) (p : PeerId) : List PeerId × List PeerId :=
  (listed, listed.filter (fun x => !PeerId.eqv x p))

/-- change_peers_returned (cli_service.cpp:283-304). -/
def changeReturned (listed : List PeerId) (c : Configuration) : List PeerId × List PeerId := (listed, c.peers)

/-- The configuration that add_peer, remove_peer and change_peers of the node ask for (node.cpp:902-919), when the node's
configuration is `c`. -/
inductive Call where
  | add (p : PeerId)
  | remove (p : PeerId)
  | change (c : Configuration)
deriving Repr

def Call.target (c : Configuration) : Call → Configuration
  | .add p => (c.addPeer p).1
  | .remove p => (c.removePeer p).1
  | .change d => d

def Call.answer (listed : List PeerId) : Call → List PeerId × List PeerId
  | .add p => addReturned listed p
  | .remove p => removeReturned listed p
  | .change d => changeReturned listed d

/-- An answer of one peer to the search for the leader: the call failed, or its text was parsed to this peer (the empty
peer if it cannot be parsed). -/
inductive Reply where
  | failed
  | leader (p : PeerId)
deriving DecidableEq, Repr

/-- cli::get_leader (cli.cpp:27-67): the last answer wins. -/
def search : List Reply → PeerId → PeerId
  | [], l => l
  | .failed :: r, l => search r l
  | .leader p :: r, _ => search r p

/-- Its result: none for an error. -/
def findLeader (replies : List Reply) : Option PeerId :=
  let l := search replies {}
  if l.isEmpty then none else some l

end Braft.Cli
