import Verif.Props.Wire
import Verif.Props.IndexedQueue
import Verif.Base.Object
import Verif.Queue.IndexedObject
import Verif.Props.IndexedObject
import Verif.Props.PriorityQueue
import Verif.Props.Relation
import Verif.Util.OneToManyObject
import Verif.Props.RelationObject
import Verif.Props.Allocator
import Verif.Sched.Frame
import Verif.Props.Tasks
import Verif.Props.Survive
import Verif.Props.Graphs
import Verif.Props.Workers
import Verif.Props.Balance
import Verif.Props.Admission
import Verif.Props.Dispatch
import Verif.Props.Functions
import Verif.Worker.Agent
import Verif.Spec.Worker
import Verif.Worker.AgentInv
import Verif.Props.Agent
import Verif.Worker.Processor
import Verif.Spec.Processor
import Verif.Worker.ProcessorInv
import Verif.Worker.ProcessorAlone
import Verif.Props.Processor
import Verif.Client.Client
import Verif.Spec.Client
import Verif.Client.ClientInv
import Verif.Client.ClientFutures
import Verif.Client.ClientAlone
import Verif.Props.Client
import Verif.Client.Args
import Verif.Spec.Args
import Verif.Props.Args
import Verif.Sched.SorterCycle
import Verif.Client.Graph
import Verif.Spec.UserGraph
import Verif.Client.GraphLemmas
import Verif.Props.UserGraph
import Verif.Util.Decimal
import Verif.Util.ZmqConfig
import Verif.Util.Formatter
import Verif.Props.Address
import Verif.Props.Formatter
import Verif.Sched.Emit
import Verif.Sched.Source
import Verif.Worker.AgentFlow
import Verif.Worker.ProcessorFlow
import Verif.Client.ClientIo
import Verif.System.System
import Verif.System.SystemInv
import Verif.System.SystemStep
import Verif.Spec.System
import Verif.Props.System
import Verif.Spec.WireLayout
import Verif.Spec.Report
import Verif.Props.WireLayout
import Verif.Props.Report
import Verif.Spec.Peers
import Verif.Sched.Peers
import Verif.Props.Peers
import Verif.Props.Beat
import Verif.Spec.Monitor
import Verif.Sched.Monitor
import Verif.Props.Monitor
import Verif.Spec.Number
import Verif.Props.Numbers
import Verif.Spec.Readable
import Verif.Props.Readable
import Verif.Sched.Server
import Verif.Sched.Fit
import Verif.Spec.Server
import Verif.Props.Server
import Verif.Util.Top
import Verif.Spec.Top
import Verif.Props.Top
import Verif.Spec.Prompt
import Verif.Sched.Prompt
import Verif.Sched.Timely
import Verif.Props.Prompt
import Verif.Wire.Connector
import Verif.Spec.Connector
import Verif.Spec.Cost
import Verif.Spec.Lingers
import Verif.Props.Connector
import Verif.Cluster.Cluster
import Verif.Spec.Cluster
import Verif.Props.Cluster
import Verif.Sched.Progress
import Verif.Props.Progress
import Verif.Worker.Process
import Verif.Spec.Process
import Verif.Worker.ProcessInv
import Verif.Props.Process
import Verif.Props.Pids
import Verif.Props.AgentObject
import Verif.Client.Refused
import Verif.Spec.Refused
import Verif.Props.Refused
import Verif.Spec.Interval
import Verif.Props.Interval
import Verif.Cluster.Argparse
import Verif.Cluster.Options
import Verif.Spec.Options
import Verif.Cluster.OptionsInv
import Verif.Props.Options
import Verif.Util.Logging
import Verif.Spec.Logging
import Verif.Props.Logging
import Verif.Spec.ClientMessages
import Verif.Props.ClientMessages
import Verif.Sched.Limit
import Verif.System.Causal
import Verif.Props.ClientSystem
import Verif.Props.Fatal
import Verif.Props.SchedProcess
import Verif.Props.Combo
import Verif.Sched.Called
import Verif.Props.SchedSystem
import Verif.Props.WorkerSystem
import Verif.Sched.Placed
import Verif.System.Transit
import Verif.Spec.Transit
import Verif.Props.Transit
import Verif.Client.ClientPlace
import Verif.Spec.Trace
import Verif.System.Trace
import Verif.Props.Trace
import Verif.Props.GraphTrace
import Verif.Worker.Memory
import Verif.Spec.Memory
import Verif.Props.Memory
import Verif.Spec.Running
import Verif.Worker.AgentTime
import Verif.System.Inside
import Verif.System.Asked
import Verif.System.Ready
import Verif.Props.Running
import Verif.Sched.Steady
import Verif.Spec.Steady
import Verif.System.Steady
import Verif.Props.Steady
import Verif.System.Rest
import Verif.System.Questions
import Verif.System.Unrefused
import Verif.System.Awaited
import Verif.Spec.Rest
import Verif.Props.Rest
import Verif.Props.RestRuns
import Verif.Sched.Gain
import Verif.System.Flow
import Verif.System.Weights
import Verif.System.WeightsWorker
import Verif.Spec.Settle
import Verif.System.Settle
import Verif.Props.Settle
import Verif.Client.Blocking
import Verif.Spec.Blocking
import Verif.Props.Blocking
import Verif.Props.BlockingLeft
import Verif.Spec.Sorter
import Verif.Props.Sorter
import Verif.Props.SystemCalls
import Verif.Client.ClientDone
import Verif.Spec.Finish
import Verif.System.Finish
import Verif.Props.Finish
import Verif.Props.FinishRuns
import Verif.Props.NoTargets
import Verif.Spec.Ended
import Verif.Props.Ended
import Verif.Spec.Orderly
import Verif.Worker.AgentWire
import Verif.Sched.EchoFirst
import Verif.Client.ClientTame
import Verif.System.Orderly
import Verif.System.Unfailing
import Verif.Props.Orderly
import Verif.Util.Float
import Verif.Util.FloatLemmas
import Verif.Props.Display
import Verif.Sched.Uncalled
import Verif.System.MildGraph
import Verif.System.Holds
import Verif.Spec.Rebalance
import Verif.Props.Rebalance
import Verif.Spec.Fair
import Verif.Props.Fair
import Verif.Sched.BalanceFloat
import Verif.Client.Memo
import Verif.Spec.Memo
import Verif.Props.Memo
import Verif.Spec.Residue
import Verif.Props.Residue
import Verif.Client.ClientKept
import Verif.Props.ResidueEnds
import Verif.Spec.Forgets
import Verif.Props.Forgets
import Verif.Spec.Timely
import Verif.System.Beats
import Verif.Props.Timely
import Verif.Worker.Scan
import Verif.Worker.Threads
import Verif.Spec.Scan
import Verif.Props.Scan
import Verif.Props.FairCalls
import Verif.Props.Cost
import Verif.Props.Lingers
import Verif.Worker.Family
import Verif.Spec.Family
import Verif.Props.Family
import Verif.Props.Honest
import Verif.Util.Latency
import Verif.Props.Latency
import Verif.Queue.PriorityObject
import Verif.Queue.Waiting
import Verif.Spec.Waiting
import Verif.Props.Waiting
import Verif.Spec.ClockSet
import Verif.Props.ClockSet
