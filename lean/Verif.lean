import Verif.Model.Py
import Verif.Model.Backpressure
import Verif.Lemmas.Backpressure
import Verif.Props.Backpressure
import Verif.Model.MessageCache
import Verif.Lemmas.MessageCache
import Verif.Props.MessageCache
import Verif.Model.Dag
import Verif.Spec.Path
import Verif.Lemmas.Py
import Verif.Lemmas.Dag
import Verif.Props.Dag
import Verif.Model.Netprotocol
import Verif.Lemmas.Netprotocol
import Verif.Props.Netprotocol
import Verif.Model.Marshal
import Verif.Lemmas.Marshal
import Verif.Props.Marshal
import Verif.Model.Shm
import Verif.Lemmas.Shm
import Verif.Props.Shm
import Verif.Model.ShmLease
import Verif.Props.ShmLease
import Verif.Model.LeakyQueue
import Verif.Model.System
import Verif.Spec.SystemLog
import Verif.Lemmas.SystemChan
import Verif.Lemmas.System
import Verif.Lemmas.SystemStep
import Verif.Lemmas.SystemRun
import Verif.Lemmas.SystemSub
import Verif.Lemmas.SystemEffect
import Verif.Lemmas.SystemReach
import Verif.Lemmas.SystemDrain
import Verif.Lemmas.SystemQuiet
import Verif.Lemmas.SystemSync
import Verif.Props.Delivery
import Verif.Props.Flow
import Verif.Model.Transport
import Verif.Props.Transport
import Verif.Model.EventLog
import Verif.Model.GraphServer
import Verif.Props.EventLog
import Verif.Lemmas.Srv
import Verif.Lemmas.SrvStep
import Verif.Lemmas.SrvInv
import Verif.Props.Sessions
import Verif.Props.Processes
import Verif.Props.Requests
import Verif.Lemmas.SrvSettings
import Verif.Props.Settings
import Verif.Props.Topology
import Verif.Model.Units
import Verif.Props.Units
import Verif.Props.Logger
import Verif.Model.AxisArray
import Verif.Spec.AxisArray
import Verif.Lemmas.AxisArray
import Verif.Props.AxisArray
import Verif.Props.AxisOps
import Verif.Props.Chunker
import Verif.Props.Sliding
import Verif.Props.SettingsSteps
import Verif.Model.GraphUtil
import Verif.Props.GraphUtil
import Verif.Model.Backend
import Verif.Props.Backend
import Verif.Model.SettingsPatch
import Verif.Props.SettingsPatch
import Verif.Model.ChannelManager
import Verif.Props.ChannelManager
import Verif.Model.Overlap
import Verif.Lemmas.Overlap
import Verif.Props.Overlap
import Verif.Model.Growth
import Verif.Props.Growth
import Verif.Model.Codec
import Verif.Props.Codec
import Verif.Lemmas.SrvJobs
import Verif.Props.Routing
import Verif.Model.Runner
import Verif.Props.Runner
import Verif.Model.SettingsTrack
import Verif.Props.SettingsTrack
import Verif.Model.ControlClients
import Verif.Props.ControlClients
import Verif.Model.Departure
import Verif.Lemmas.Departure
import Verif.Lemmas.DepartureStep
import Verif.Props.Departure
import Verif.Model.Follow
import Verif.Props.Follow
import Verif.Model.Joining
import Verif.Props.Joining
import Verif.Model.Profiling
import Verif.Lemmas.Profiling
import Verif.Lemmas.Traces
import Verif.Props.Profiling
import Verif.Props.Traces
import Verif.Props.TraceOrder
import Verif.Model.Inflight
import Verif.Props.Inflight
import Verif.Model.TraceStream
import Verif.Props.TraceStream
import Verif.Model.SyncSpin
import Verif.Props.SyncSpin
import Verif.Model.Lifecycle
import Verif.Props.Lifecycle
import Verif.Model.Replay
import Verif.Props.Replay
import Verif.Model.Compact
import Verif.Props.Compact
import Verif.Model.Draw
import Verif.Props.Draw
import Verif.Model.Classes
import Verif.Props.Classes
import Verif.Model.View2d
import Verif.Props.View2d
import Verif.Model.Modify
import Verif.Props.Modify
import Verif.Model.Generator
import Verif.Props.Generator
import Verif.Model.Timeout
import Verif.Props.Timeout
import Verif.Model.GraphSync
import Verif.Props.GraphSync
import Verif.Model.Updates
import Verif.Props.Updates
import Verif.Model.Address
import Verif.Props.Address
import Verif.Model.Control
import Verif.Props.Control
import Verif.Model.SettingsMeta
import Verif.Props.SettingsMeta
import Verif.Model.Equality
import Verif.Props.Equality
import Verif.Model.TaskRun
import Verif.Props.TaskRun
import Verif.Model.UnitSetup
import Verif.Props.UnitSetup
import Verif.Model.Context
import Verif.Props.Context
import Verif.Model.Snapshot
import Verif.Props.Snapshot
import Verif.Props.UpdateSettings
import Verif.Props.ProfileAll
import Verif.Model.RouteRequest
import Verif.Model.TracePush
import Verif.Props.RouteRequest
import Verif.Props.TracePush
import Verif.Model.ServerStart
import Verif.Props.ServerStart
import Verif.Model.ServerStop
import Verif.Props.ServerStop
import Verif.Model.Interrupt
import Verif.Props.Interrupt
import Verif.Model.Wire
import Verif.Props.Wire
import Verif.Model.Closing
import Verif.Props.Closing
import Verif.Model.PubClose
import Verif.Props.PubClose
import Verif.Model.Executor
import Verif.Props.Executor
import Verif.Model.LoopClose
import Verif.Props.LoopClose
import Verif.Model.SyncRecv
import Verif.Props.SyncRecv
import Verif.Model.Configure
import Verif.Props.Configure
import Verif.Model.ChunkerUnit
import Verif.Props.ChunkerUnit
import Verif.Model.Metadata
import Verif.Props.Metadata
import Verif.Model.Coordinates
import Verif.Props.Coordinates
import Verif.Model.CancelPub
import Verif.Props.CancelPub
import Verif.Model.Views
import Verif.Props.Views
import Verif.Model.Unsubscribe
import Verif.Props.Unsubscribe
import Verif.Model.SyncLife
import Verif.Props.SyncLife
import Verif.Model.Forward
import Verif.Props.Forward
import Verif.Model.Tracker
import Verif.Props.Tracker
import Verif.Model.SyncZero
import Verif.Props.SyncZero
import Verif.Model.LoadTest
import Verif.Props.LoadTest
import Verif.Model.Decorators
import Verif.Props.Decorators
import Verif.Model.Command
import Verif.Props.Command
import Verif.Model.Naming
import Verif.Props.Naming
import Verif.Model.Compare
import Verif.Lemmas.Compare
import Verif.Props.Compare
import Verif.Model.Steady
import Verif.Props.Steady
import Verif.Model.Bench
import Verif.Props.Bench
import Verif.Props.Served
import Verif.Model.HotPath
import Verif.Props.HotPath
import Verif.Model.HtmlReport
import Verif.Props.HtmlReport
import Verif.Model.Schema
import Verif.Props.Schema
import Verif.Model.Marks
import Verif.Props.Marks
import Verif.Model.GenUnit
import Verif.Props.GenUnit
import Verif.Model.ProcessCalls
import Verif.Props.ProcessCalls
