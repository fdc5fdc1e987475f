import Verif.Props.Split
import Verif.Props.Worker
import Verif.Props.Motion
import Verif.Props.Junction
import Verif.Props.JunctionEnd
import Verif.Props.BackOff
import Verif.Props.Regulator
import Verif.Props.Flow
import Verif.Props.Stuck
import Verif.Props.Backpressure
import Verif.Props.Buffer
import Verif.Props.BufferCount
import Verif.Props.Parser
import Verif.Props.Settings
import Verif.Props.Serde
import Verif.Props.SerdeFields
import Verif.Props.Command
import Verif.Props.Keys
import Verif.Props.Hops
import Verif.Props.Inserted
import Verif.Props.Spies
import Verif.Props.Wiring
import Verif.Props.Legal
import Verif.Props.Outcome
import Verif.Props.Managers
import Verif.Props.Launch
import Verif.Props.Report
import Verif.Props.Graph
import Verif.Spec.Network
import Verif.Lemmas.Fails
import Verif.Lemmas.Conduct
import Verif.Lemmas.ConductJunction
import Verif.Lemmas.Network
import Verif.Props.Network
import Verif.Props.Pipeline
import Verif.Lemmas.Progress
import Verif.Lemmas.Short
import Verif.Props.Progress
import Verif.Lemmas.Rest
import Verif.Lemmas.Script
import Verif.Props.Loop
import Verif.Props.Ring
import Verif.Lemmas.History
import Verif.Props.BufferReports
import Verif.Model.Runtime
import Verif.Spec.Runtime
import Verif.Lemmas.Runtime
import Verif.Props.Runtime
import Verif.Lemmas.RuntimeRun
import Verif.Lemmas.RuntimeExit
import Verif.Props.RuntimeFlow
import Verif.Lemmas.Drive
import Verif.Props.RuntimeExample
import Verif.Props.RuntimeStreams
import Verif.Props.RuntimeProgress
import Verif.Lemmas.Forever
import Verif.Lemmas.Standstill
import Verif.Spec.Fair
import Verif.Spec.Stall
import Verif.Lemmas.RuntimeEnds
import Verif.Props.RuntimeEnds
import Verif.Model.Joined
import Verif.Lemmas.Simulate
import Verif.Lemmas.Attended
import Verif.Spec.Held
import Verif.Lemmas.Held
import Verif.Lemmas.Blame
import Verif.Lemmas.Rested
import Verif.Lemmas.ManagerRest
import Verif.Lemmas.Lull
import Verif.Lemmas.Bounded
import Verif.Lemmas.Senders
import Verif.Lemmas.Busy
import Verif.Props.FlowControl
import Verif.Lemmas.Steer
import Verif.Props.Steering
import Verif.Lemmas.Accuracy
import Verif.Props.BufferRuntime
import Verif.Model.Unopened
import Verif.Lemmas.Starved
import Verif.Lemmas.Carried
import Verif.Lemmas.Delivered
import Verif.Props.Unopened
import Verif.Spec.FairWith
import Verif.Lemmas.Shut
import Verif.Props.UnopenedEnds
import Verif.Props.Processed
import Verif.Model.Main
import Verif.Model.Clap
import Verif.Spec.CommandLine
import Verif.Props.CommandLine
import Verif.Lemmas.Proper
import Verif.Spec.Edits
import Verif.Props.Edits
import Verif.Lemmas.Plain
import Verif.Props.Endings
import Verif.Props.Texts
import Verif.Props.EndingsExample
import Verif.Spec.Exit
import Verif.Model.Results
import Verif.Lemmas.Honest
import Verif.Lemmas.Collected
import Verif.Props.ExitCode
import Verif.Props.ExitExample
import Verif.Spec.Dot
import Verif.Props.Drawing
import Verif.Lemmas.Consume
import Verif.Props.Variations
import Verif.Props.VariationsExample
import Verif.Spec.Mix
import Verif.Lemmas.Mix
import Verif.Model.Source
import Verif.Props.Bytes
import Verif.Props.BytesExample
import Verif.Lemmas.JunctionOnce
import Verif.Props.JunctionFails
import Verif.Lemmas.Circle
import Verif.Spec.Circles
import Verif.Props.Circles
import Verif.Lemmas.Jam
import Verif.Spec.Jam
import Verif.Props.Jam
import Verif.Spec.Transit
import Verif.Lemmas.Transit
import Verif.Props.Transit
import Verif.Lemmas.Climb
import Verif.Lemmas.Watermark
import Verif.Lemmas.Reservoir
import Verif.Props.Reservoir
import Verif.Props.ReservoirExample
import Verif.Model.World
import Verif.Spec.World
import Verif.Lemmas.ProgressHeld
import Verif.Lemmas.WorldStill
import Verif.Lemmas.WorldReads
import Verif.Lemmas.World
import Verif.Lemmas.WorldProgress
import Verif.Lemmas.WorldDrive
import Verif.Props.World
import Verif.Spec.Filter
import Verif.Lemmas.WorldBytes
import Verif.Lemmas.WorldCircles
import Verif.Props.WorldBytes
import Verif.Props.WorldBytesExample
import Verif.Spec.FairWorld
import Verif.Lemmas.WorldFinite
import Verif.Lemmas.WorldEnds
import Verif.Props.WorldEnds
import Verif.Props.WorldEndsExample
import Verif.Lemmas.WorldRest
import Verif.Lemmas.WorldAsleep
import Verif.Props.WorldRest
import Verif.Props.WorldRestExample
import Verif.Props.WorldExit
import Verif.Lemmas.Decimal
import Verif.Lemmas.WorldExit
import Verif.Spec.Solve
import Verif.Props.WorldSolve
import Verif.Props.WorldSolveExample
import Verif.Spec.Doze
import Verif.Lemmas.WorldDoze
import Verif.Lemmas.JamCircles
import Verif.Props.WorldDoze
import Verif.Props.WorldDozeExample
import Verif.Spec.LineByLine
import Verif.Lemmas.LineByLine
import Verif.Props.WorldLines
import Verif.Props.WorldLinesExample
import Verif.Spec.Looks
import Verif.Lemmas.WorldSettles
import Verif.Lemmas.WorldFinal
import Verif.Lemmas.WorldFair
import Verif.Props.WorldSettles
import Verif.Props.WorldSettlesExample
import Verif.Spec.Causes
import Verif.Lemmas.Causes
import Verif.Lemmas.KeptOnce
import Verif.Props.LaunchApart
import Verif.Props.Causes
import Verif.Props.CausesExample
import Verif.Spec.Backs
import Verif.Lemmas.WorldSteer
import Verif.Lemmas.Braids
import Verif.Props.WorldSteer
import Verif.Props.WorldSteerExample
import Verif.Spec.Relief
import Verif.Lemmas.Relief
import Verif.Lemmas.Relieves
import Verif.Props.Relief
import Verif.Props.ReliefExample
import Verif.Model.Spawn
import Verif.Spec.Spawn
import Verif.Props.Spawn
import Verif.Props.Tolerant
import Verif.Props.TolerantExample
import Verif.Props.TolerantWorld
import Verif.Props.Unheard
import Verif.Props.UnheardExample
import Verif.Spec.Burst
import Verif.Lemmas.Burst
import Verif.Props.Burst
import Verif.Props.BurstExample
import Verif.Model.Compare
import Verif.Props.Compare
import Verif.Props.SpawnPiped
import Verif.Lemmas.LoopsWritten
import Verif.Props.WorldLoops
import Verif.Model.FakeRead
import Verif.Props.FakeRead
import Verif.Lemmas.JunctionOrder
import Verif.Props.Priority
import Verif.Props.PriorityExample
import Verif.Props.PriorityWritten
import Verif.Lemmas.JunctionShare
import Verif.Props.Sharing
import Verif.Props.SharingWritten
import Verif.Lemmas.Flushes
import Verif.Lemmas.Endless
import Verif.Lemmas.FairExists
import Verif.Props.Endless
import Verif.Props.EndlessWritten
import Verif.Lemmas.Periodic
import Verif.Props.Starving
import Verif.Props.FavouredWritten
import Verif.Props.EndlessDrain
import Verif.Props.Stalled
import Verif.Props.Piped
import Verif.Props.PipedExample
