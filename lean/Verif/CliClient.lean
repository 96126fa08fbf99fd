import Verif.Cli
import Verif.PeerText
/-
Model of the administration tools (cli.cpp:27-273) together with the service they call (cli_service.cpp:25-348), and of the
service that raft messages go through (raft_service.cpp:31-167): both carry peers as text.

* One process answers at an address; between two remote calls anything may happen to it, so every call has its own process
  state. A remote call may be served several times (CliOptions::max_retry) and its answer may be lost.
* Nodes are registered under group and peer without the role: operator== of PeerId ignores it (configuration.h:115-117).
* What a node does with the call is not in this model (Node/ConfCtx, Node/Transfer); here it is the code of the closure.
-/
set_option linter.unusedVariables false
set_option linter.unusedSectionVars false

namespace Braft.CliC
open Braft.Cli Braft.NodeManager Braft.Text

abbrev Txt := List Char

/-- What operator== of PeerId looks at (configuration.h:115-117). -/
def key (p : PeerId) : PeerId := { p with role := .replica }

variable {G : Type} [DecidableEq G]

/-- A process when a request arrives: the nodes registered in it; disable_cli of a node, the leader it knows (empty if none),
what list_peers answers (an error code, or the peers). -/
structure Proc (G : Type) where
  maps : Maps G PeerId
  disabled : Node G PeerId → Bool
  leader : Node G PeerId → PeerId
  listed : Node G PeerId → Except Int (List PeerId)

/-- The commands. -/
inductive Cmd where
  | add (p : PeerId)
  | remove (p : PeerId)
  | change (c : Configuration)
  | transfer (p : PeerId)
  | reset (at_ : PeerId) (c : Configuration)
  | snapshot (at_ : PeerId)
deriving DecidableEq, Repr

/-- The function of the node that is called (node.cpp:902-919, 1204, 921, 974). -/
inductive Call where
  | add (p : PeerId)
  | remove (p : PeerId)
  | change (c : Configuration)
  | transfer (p : PeerId)
  | reset (c : Configuration)
  | snapshot
deriving DecidableEq, Repr

/-- The requests of cli.proto, by method. -/
inductive Kind | add | remove | change | transfer | reset | snapshot
deriving DecidableEq, Repr

/-- The fields of a request but the group: leader_id, or peer_id of reset_peer and snapshot; peer_id of the others;
new_peers. -/
structure Req where
  target : Txt
  peer : Option Txt
  peers : List Txt
deriving DecidableEq, Repr

/-- What the service does with a request: calls the node, or fails. `bad`: the text makes a CHECK fail or is undefined
behaviour for sscanf (configuration.h:61-62, 74-93). -/
inductive Served (G : Type) where
  | call (n : Node G PeerId) (c : Call)
  | err (code : Int)
  | bad
deriving Repr

def errno : Err → Int
  | .enoent => 2
  | .einval => 22
  | .eacces => 13

/-- CliServiceImpl::get_node with the text of the request (cli_service.cpp:248-281). -/
def nodeOf (P : Proc G) (g : G) (t : Txt) : Out (Except Err (Node G PeerId)) :=
  if t = [] then .ok (getNode P.maps P.disabled g none)
  else match parsePeer t with
    | .ok p => .ok (getNode P.maps P.disabled g (some (key p)))
    | _ => .ub

/-- The call that the arguments of a request ask for: add_peer (cli_service.cpp:66-71), remove_peer (119-124), change_peers
(322-331), transfer_leader (345-349), reset_peer (154-163), snapshot (193-195). -/
def argOf (k : Kind) (r : Req) : Out Call :=
  let one : (PeerId → Call) → Out Call := fun f =>
    match r.peer with
    | none => .fail
    | some t => match parsePeer t with
      | .ok p => .ok (f p)
      | .fail => .fail
      | .ub => .ub
  let many : (Configuration → Call) → Out Call := fun f =>
    match parseFields r.peers {} with
    | .ok c => .ok (f c)
    | .fail => .fail
    | .ub => .ub
  match k with
  | .add => one .add
  | .remove => one .remove
  | .change => many .change
  | .transfer => match r.peer with
    | none => .ok (.transfer {})
    | some _ => one .transfer
  | .reset => many .reset
  | .snapshot => .ok .snapshot

/-- Do they list the peers first (cli_service.cpp:60-65, 113-118, 316-321)? -/
def Kind.lists : Kind → Bool
  | .add | .remove | .change => true
  | _ => false

/-- A method of CliServiceImpl (cli_service.cpp:50-81, 104-134, 136-169, 181-209, 306-334, 336-362). -/
def serve (P : Proc G) (k : Kind) (g : G) (r : Req) : Served G :=
  match nodeOf P g r.target with
  | .ok (.ok n) =>
    match (if k.lists then P.listed n else .ok []) with
    | .error e => .err e
    | .ok _ =>
      match argOf k r with
      | .ok c => .call n c
      | .fail => .err 22
      | .ub => .bad
  | .ok (.error e) => .err (errno e)
  | _ => .bad

/-- CliServiceImpl::get_leader (cli_service.cpp:211-246): the text of the answer, none for a failure. -/
def serveLeader (P : Proc G) (g : G) (t : Txt) : Option Txt :=
  match parsePeer t with
  | .ok p => (getLeader P.maps (fun n => if (P.leader n).isEmpty then none else some (P.leader n)) g (some (key p))).map printPeer
  | _ => none

/-- One turn of the loop of cli::get_leader (cli.cpp:36-62): the channel cannot be made, nobody answers, or this process
does. -/
inductive Look (G : Type) where
  | noChannel
  | lost
  | served (P : Proc G)

/-- The loop (cli.cpp:36-62); `l` is leader_id so far. None: it returns because a channel cannot be made. -/
def look (g : G) : List PeerId → List (Look G) → PeerId → Option PeerId
  | [], _, l => some l
  | _ :: _, [], l => some l
  | p :: ps, .noChannel :: _, _ => none
  | p :: ps, .lost :: ls, l => look g ps ls l
  | p :: ps, .served P :: ls, l =>
    match serveLeader P g (printPeer p) with
    | none => look g ps ls l
    | some t => match parsePeer t with
      | .ok q => look g ps ls q
      | _ => look g ps ls {}

/-- A remote call: the processes that served it, each with the code with which the node's closure ran (0: OK) if it was
called; whose answer arrived; the error if none did. `init`: the channel can be made. -/
structure Rpc (G : Type) where
  init : Bool
  served : List (Proc G × Int)
  answer : Option Nat
  err : Int

/-- The result of one attempt. -/
def attempt (k : Kind) (g : G) (r : Req) (a : Proc G × Int) : Int :=
  match serve a.1 k g r with
  | .call _ _ => a.2
  | .err e => e
  | .bad => -1

/-- The status of the remote call. -/
def Rpc.status (x : Rpc G) (k : Kind) (g : G) (r : Req) : Int :=
  if x.init then
    match x.answer with
    | some i => match x.served[i]? with
      | some a => attempt k g r a
      | none => x.err
    | none => x.err
  else -1

/-- The calls of nodes that it makes, each with its process and result. -/
def Rpc.calls (x : Rpc G) (k : Kind) (g : G) (r : Req) : List (Proc G × Node G PeerId × Call × Int) :=
  if x.init then x.served.filterMap (fun a =>
    match serve a.1 k g r with
    | .call n c => some (a.1, n, c, a.2)
    | _ => none)
  else []

/-- The request of a command, to the peer `l` (cli.cpp:79-82, 117-120, 154-162, 184-187, 209-215, 257-262). -/
def Cmd.req (l : PeerId) : Cmd → Kind × Req
  | .add p => (.add, ⟨printPeer l, some (printPeer p), []⟩)
  | .remove p => (.remove, ⟨printPeer l, some (printPeer p), []⟩)
  | .change c => (.change, ⟨printPeer l, none, c.peers.map printPeer⟩)
  | .transfer p => (.transfer, ⟨printPeer l, if p.isEmpty then none else some (printPeer p), []⟩)
  | .reset _ c => (.reset, ⟨printPeer l, none, c.peers.map printPeer⟩)
  | .snapshot _ => (.snapshot, ⟨printPeer l, none, []⟩)

/-- What a command returns and which calls it makes. -/
abbrev Ran (G : Type) := Int × List (Proc G × Node G PeerId × Call × Int)

/-- The remote call of a command to the peer `l`. -/
def ask (g : G) (cmd : Cmd) (l : PeerId) (x : Rpc G) : Ran G :=
  (x.status (cmd.req l).1 g (cmd.req l).2, x.calls (cmd.req l).1 g (cmd.req l).2)

/-- The commands: reset_peer (cli.cpp:146-174) and snapshot (176-196) name the node; add_peer (70-106), remove_peer
(108-144), change_peers (198-241) and transfer_leader (243-273) look for the leader among the peers `conf`. -/
def run (g : G) (conf : Configuration) (looks : List (Look G)) (cmd : Cmd) (x : Rpc G) : Ran G :=
  match cmd with
  | .reset p c => if c.empty then (22, []) else ask g cmd p x
  | .snapshot p => ask g cmd p x
  | _ =>
    if conf.empty then (22, [])
    else match look g conf.peers looks {} with
      | none => (-1, [])
      | some l =>
        if l.isEmpty then (-1, [])
        else match cmd with
          | .transfer p => if PeerId.eqv l p then (0, []) else ask g cmd l x
          | _ => ask g cmd l x

/-- RaftServiceImpl (raft_service.cpp:31-167), the part all methods share: the node that gets the request, or an error. -/
def route (P : Proc G) (g : G) (t : Txt) : Except Int (Node G PeerId) :=
  match parsePeer t with
  | .ok p => match NodeManager.get P.maps g (key p) with
    | some n => .ok n
    | none => .error 2
  | _ => .error 22

end Braft.CliC
