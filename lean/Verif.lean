import Verif.Props.Ballot
import Verif.Props.BallotBox
import Verif.Props.Peer
import Verif.Props.ConfManager
import Verif.Props.Timer
import Verif.Props.Throttle
import Verif.Props.Registry
import Verif.Props.Raft
import Verif.Props.Lease
import Verif.Props.LeaseNet
import Verif.Props.LeaseRaft
import Verif.Props.Readonly
import Verif.Props.Apply
import Verif.Props.PreVote
import Verif.Props.NodeLocal
import Verif.Props.Store
import Verif.Props.MemLog
import Verif.Props.Meta
import Verif.Props.LogManager
import Verif.Props.Wait
import Verif.Props.Fsm
import Verif.Props.StoreDamage
import Verif.Props.AeCache
import Verif.Props.ConfCtx
import Verif.Props.Snapshot
import Verif.Props.Executor
import Verif.Props.FileCopy
import Verif.Props.Replicator
import Verif.Props.Buffered
import Verif.Props.Service
import Verif.Props.Paths
import Verif.Props.EntryWire
import Verif.Props.Cli
import Verif.Props.Life
import Verif.Props.Transfer
import Verif.Props.Alive
import Verif.Props.Power
import Verif.Props.MetaPower
import Verif.Props.Pipe
import Verif.Props.Cluster
import Verif.Props.Members
import Verif.Props.Heartbeat
import Verif.Props.Status
import Verif.Props.Uri
import Verif.Props.Timers
import Verif.Props.LogNode
import Verif.Props.PipeNode
import Verif.Props.Progress
import Verif.Props.SnapPower
import Verif.Props.Shutdown
import Verif.Props.Bootstrap
import Verif.Props.Witness
import Verif.Props.Origin
import Verif.Props.ConfNode
import Verif.Props.CliClient
import Verif.Props.NodeStatus
import Verif.Props.MetaTable
import Verif.Props.Names
import Verif.Props.Followers
import Verif.Props.ServiceAddr
import Verif.Props.MergedQueue
import Verif.Props.PowerBytes
import Verif.Props.SnapTimer
