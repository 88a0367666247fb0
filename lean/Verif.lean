import Verif.Client.Binary
import Verif.Client.Buffer
import Verif.Client.Flow
import Verif.Client.Headers
import Verif.Client.Heart
import Verif.Client.Heartbeat
import Verif.Client.Joint
import Verif.Client.Life
import Verif.Client.MemSession
import Verif.Client.Memory
import Verif.Client.Meta
import Verif.Client.Narrow
import Verif.Client.Puts
import Verif.Client.Race
import Verif.Client.Reconn
import Verif.Client.Result
import Verif.Client.Sched
import Verif.Client.Segmented
import Verif.Client.Text
import Verif.Client.Types
import Verif.Cluster.Links
import Verif.Cluster.OverMc
import Verif.Cluster.Replica
import Verif.Cluster.Rewired
import Verif.Cluster.Sched
import Verif.Cluster.Wired
import Verif.Go.Act
import Verif.Go.Basic
import Verif.Go.BufMem
import Verif.Go.BufWrite
import Verif.Go.Bufio
import Verif.Go.Framing
import Verif.Go.Fscanf
import Verif.Go.Lemmas
import Verif.Go.Puts
import Verif.Go.Slice
import Verif.Lemmas.Ascii
import Verif.Lemmas.BinReply
import Verif.Lemmas.BinReq
import Verif.Lemmas.BufMem
import Verif.Lemmas.ClientStable
import Verif.Lemmas.Drained
import Verif.Lemmas.Mc
import Verif.Lemmas.McBin
import Verif.Lemmas.McText
import Verif.Lemmas.MetaReply
import Verif.Lemmas.Never
import Verif.Lemmas.Online
import Verif.Lemmas.OnlineBin
import Verif.Lemmas.Reply
import Verif.Lemmas.ResultReaders
import Verif.Lemmas.ResultSim
import Verif.Lemmas.Ring
import Verif.Lemmas.RingEval
import Verif.Lemmas.Scan
import Verif.Lemmas.Segmented
import Verif.Lemmas.ServerMem
import Verif.Lemmas.TextReply
import Verif.Lemmas.Write
import Verif.Mc.Binary
import Verif.Mc.Many
import Verif.Mc.Online
import Verif.Mc.OnlineBin
import Verif.Mc.Server
import Verif.Mc.Session
import Verif.Pool.Hash
import Verif.Pool.OverMc
import Verif.Pool.Ring
import Verif.Pool.RingData
import Verif.Pool.Sched
import Verif.Pool.Single
import Verif.Props.Accept
import Verif.Props.AcceptsBinary
import Verif.Props.AcceptsMeta
import Verif.Props.AcceptsText
import Verif.Props.Acks
import Verif.Props.AnyBinary
import Verif.Props.AnyMeta
import Verif.Props.AnyText
import Verif.Props.BinHistory
import Verif.Props.BinaryReplies
import Verif.Props.BinaryRequests
import Verif.Props.ClientPanics
import Verif.Props.Converse
import Verif.Props.Errors
import Verif.Props.Flags
import Verif.Props.Flow
import Verif.Props.FlowServer
import Verif.Props.FlowUse
import Verif.Props.Grammar
import Verif.Props.Headers
import Verif.Props.Heart
import Verif.Props.HeartUse
import Verif.Props.Heartbeat
import Verif.Props.History
import Verif.Props.Injection
import Verif.Props.Joint
import Verif.Props.JointAccounts
import Verif.Props.JointFinite
import Verif.Props.JointLinear
import Verif.Props.JointOrder
import Verif.Props.JointPlan
import Verif.Props.JointRest
import Verif.Props.JointRouter
import Verif.Props.JointRouterFinite
import Verif.Props.JointRouterRest
import Verif.Props.JointRouterUse
import Verif.Props.JointRun
import Verif.Props.JointSim
import Verif.Props.JointTime
import Verif.Props.JointUse
import Verif.Props.JointUsers
import Verif.Props.Life
import Verif.Props.Many
import Verif.Props.Meaning
import Verif.Props.Memory
import Verif.Props.MetaHistory
import Verif.Props.MetaReplies
import Verif.Props.MetaRequests
import Verif.Props.MultiServed
import Verif.Props.Narrow
import Verif.Props.NarrowLock
import Verif.Props.NarrowUse
import Verif.Props.Outage
import Verif.Props.PassOn
import Verif.Props.Pool
import Verif.Props.PoolSched
import Verif.Props.PoolSchedUse
import Verif.Props.PoolSchedWitness
import Verif.Props.Progress
import Verif.Props.ProgressUse
import Verif.Props.Race
import Verif.Props.Reconn
import Verif.Props.ReconnProgress
import Verif.Props.ReconnStuck
import Verif.Props.ReconnUse
import Verif.Props.Recovered
import Verif.Props.Replica
import Verif.Props.ReplicaAgree
import Verif.Props.ReplicaCopies
import Verif.Props.ReplicaLinear
import Verif.Props.ReplicaSched
import Verif.Props.ReplicaWitness
import Verif.Props.Result
import Verif.Props.Rewired
import Verif.Props.RewiredFinite
import Verif.Props.RewiredPool
import Verif.Props.RewiredReplica
import Verif.Props.RewiredReplicaWitness
import Verif.Props.RewiredRest
import Verif.Props.RewiredSim
import Verif.Props.RewiredUse
import Verif.Props.RewiredWitness
import Verif.Props.Ring
import Verif.Props.RingWitness
import Verif.Props.Router
import Verif.Props.RouterClients
import Verif.Props.RouterLinear
import Verif.Props.Sched
import Verif.Props.SchedBin
import Verif.Props.SchedClose
import Verif.Props.SchedLate
import Verif.Props.SchedLateAny
import Verif.Props.Segments
import Verif.Props.ServeLoop
import Verif.Props.Served
import Verif.Props.ServedRouter
import Verif.Props.ServerAnswers
import Verif.Props.ServerMem
import Verif.Props.ServerPanics
import Verif.Props.Sharding
import Verif.Props.Shut
import Verif.Props.Startup
import Verif.Props.Sync
import Verif.Props.TextReplies
import Verif.Props.TextRequests
import Verif.Props.Truncation
import Verif.Props.Values
import Verif.Props.Wired
import Verif.Props.WiredBreak
import Verif.Props.WiredBreakError
import Verif.Props.WiredBreakErrorWitness
import Verif.Props.WiredBreakFound
import Verif.Props.WiredBreakFoundWitness
import Verif.Props.WiredBreakPool
import Verif.Props.WiredBreakRead
import Verif.Props.WiredBreakReadWhole
import Verif.Props.WiredBreakReadWitness
import Verif.Props.WiredBreakReplica
import Verif.Props.WiredBreakRest
import Verif.Props.WiredBreakUse
import Verif.Props.WiredBreakWitness
import Verif.Props.WiredCalls
import Verif.Props.WiredDurable
import Verif.Props.WiredExact
import Verif.Props.WiredExactUse
import Verif.Props.WiredFinite
import Verif.Props.WiredPool
import Verif.Props.WiredPoolUse
import Verif.Props.WiredRead
import Verif.Props.WiredReplica
import Verif.Props.WiredReplicaRest
import Verif.Props.WiredRest
import Verif.Props.WiredTorn
import Verif.Props.WiredTornFound
import Verif.Props.WiredTornUse
import Verif.Props.WiredTornUseWitness
import Verif.Props.WiredTornWitness
import Verif.Props.WiredUse
import Verif.Props.Writing
import Verif.Props.WritingServer
import Verif.Proxy.Main
import Verif.Proxy.Replica
import Verif.Proxy.Sched
import Verif.Server.Accept
import Verif.Server.Memory
import Verif.Server.Puts
import Verif.Server.Read
import Verif.Server.Serve
import Verif.Server.Types
import Verif.Server.Write
import Verif.Spec.Accepts
import Verif.Spec.Api
import Verif.Spec.BinApi
import Verif.Spec.Calls
import Verif.Spec.Converse
import Verif.Spec.Counter
import Verif.Spec.Flow
import Verif.Spec.Grammar
import Verif.Spec.Joint
import Verif.Spec.JointRouter
import Verif.Spec.Kv
import Verif.Spec.Late
import Verif.Spec.Linear
import Verif.Spec.Many
import Verif.Spec.Meaning
import Verif.Spec.MetaWire
import Verif.Spec.Multi
import Verif.Spec.Narrow
import Verif.Spec.Outage
import Verif.Spec.Pool
import Verif.Spec.PoolSched
import Verif.Spec.Progress
import Verif.Spec.Reconn
import Verif.Spec.ReconnProgress
import Verif.Spec.Replica
import Verif.Spec.Reply
import Verif.Spec.Result
import Verif.Spec.Rewired
import Verif.Spec.Ring
import Verif.Spec.Router
import Verif.Spec.Segments
import Verif.Spec.Sequential
import Verif.Spec.Served
import Verif.Spec.ServerMem
import Verif.Spec.Sharding
import Verif.Spec.Shared
import Verif.Spec.Startup
import Verif.Spec.Trouble
import Verif.Spec.Wire
import Verif.Spec.Wired
import Verif.Spec.WiredBreak
import Verif.Spec.WiredPool
import Verif.Spec.WiredReplica
import Verif.Spec.Writing
