import Verif.Heapq
import Verif.World
import Verif.Queue
import Verif.Kernel
import Verif.EvInv
import Verif.EvCore
import Verif.EvOps
import Verif.Frame
import Verif.Reach
import Verif.QueueInv
import Verif.Chain
import Verif.ChainRep
import Verif.ChainOps
import Verif.ChainReach
import Verif.ChainObs
import Verif.ChainIter
import Verif.ChainSets
import Verif.QueueView
import Verif.Util
import Verif.Props.Util
import Verif.Props.Waiting
import Verif.Props.Events
import Verif.Props.Queues
import Verif.Props.Rates
import Verif.Dist
import Verif.Props.Dist
import Verif.Props.Cdf
import Verif.Props.Pdf
import Verif.Monitor
import Verif.Props.Monitor
import Verif.Props.MonStats
import Verif.Props.Percentile
import Verif.Props.Bins
import Verif.Props.MonMerge
import Verif.Props.MonPlain
import Verif.Props.Slice
import Verif.Props.Period
import Verif.Trajectory
import Verif.Props.Movement
import Verif.Props.Trajectory
import Verif.Calm
import Verif.CalmTry
import Verif.CalmOps
import Verif.CalmOut
import Verif.Props.Scheduling
import Verif.CalmStep
import Verif.Props.Interrupt
import Verif.RWalk
import Verif.RSpec
import Verif.RRefine
import Verif.Props.Resources
import Verif.Props.Requests
import Verif.Props.Standby
import Verif.Props.Status
import Verif.Props.Run
import Verif.Shift
import Verif.Props.Reset
import Verif.RTry
import Verif.Props.Ending
import Verif.Walk
import Verif.Waits
import Verif.Heard
import Verif.Props.StateMon
import Verif.Props.States
import Verif.Flow
import Verif.Flow2
import Verif.Props.Stores
import Verif.Generator
import Verif.Props.Generator
import Verif.Props.GenStart
import Verif.Props.Preempt
import Verif.Served
import Verif.Props.Forgotten
import Verif.Props.Room
import Verif.Props.MonTally
import Verif.Props.Expect
import Verif.Props.GiveUp
import Verif.Props.Heading
import Verif.Props.Interp
import Verif.Props.Remaining
import Verif.Enrolled
import Verif.Legal
import Verif.Props.Legal
import Verif.Props.QSlice
import Verif.Props.Returned
import Verif.Props.Lines
import Verif.Props.Turn
import Verif.Props.AtOnce
import Verif.Props.SchedTime
import Verif.Props.ResMon
import Verif.Props.Given
import Verif.Props.Release
import Verif.Props.Granting
import Verif.Fate
import Verif.Props.Failed
import Verif.Props.Places
import Verif.Props.Rescan
import Verif.Props.DistArgs
import Verif.Props.MonScale
import Verif.Props.SliceMod
import Verif.MonRead
import Verif.Props.MonRead
import Verif.Datetime
import Verif.Props.Datetime
import Verif.Process
import Verif.Props.Bank
import Verif.Props.Servers
import Verif.Props.Buffer
import Verif.Program
import Verif.Props.Clerk
import Verif.Props.Clerks
import Verif.Props.EventAct
import Verif.Props.Claiming
import Verif.Props.Rank
import Verif.Props.Units
import Verif.Props.Poisson
import Verif.Props.DistSpec
import Verif.Props.Spline
import Verif.Props.RegPolygon
import Verif.Props.BoundedLaw
import Verif.Rename
import Verif.Props.Renaming
import Verif.Resample
import Verif.Props.Resample
import Verif.Registry
import Verif.Props.Registry
import Verif.Color
import Verif.Props.Color
import Verif.Rank
import Verif.Props.PriorityOrder
import Verif.ItemValue
import Verif.Props.ItemValue
import Verif.View
import Verif.Props.View
import Verif.AnimClock
import Verif.Props.AnimClock
import Verif.Tween
import Verif.Props.Tween
import Verif.QueueAnim
import Verif.Props.QueueAnim
import Verif.Movie
import Verif.Props.Movie
import Verif.Video
import Verif.Props.Video
import Verif.Pad
import Verif.Props.Pad
import Verif.Snapshots
import Verif.Props.Snapshots
