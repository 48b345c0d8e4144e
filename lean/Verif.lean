import Verif.Props.Scattered
import Verif.Props.Splitting
import Verif.Props.Reassembly
import Verif.Props.RoundTrip
import Verif.Props.SphinxPackets
import Verif.Props.Peel
import Verif.Props.ReplayFilter
import Verif.Props.Routes
import Verif.Props.Choosing
import Verif.Props.Cover
import Verif.Props.RouteChoice
import Verif.Props.Queues
import Verif.Props.Replay
import Verif.Props.Posting
import Verif.Props.Primitives
import Verif.Props.Hiding
import Verif.Props.Surbs
import Verif.Props.Handling
import Verif.Props.Sessions
import Verif.Props.Sending
import Verif.Props.Memory
import Verif.Props.Metrics
import Verif.Model.Api
import Verif.Props.RequestManager
import Verif.Props.ReplyManager
import Verif.Props.EndToEnd
import Verif.Props.Panics
import Verif.Props.Answers
import Verif.Props.Together
import Verif.Props.Wire
import Verif.Props.Observe
import Verif.Props.Turns
import Verif.Props.Delay
import Verif.Props.Waiting
import Verif.Props.QueueDelay
import Verif.Props.Tries
import Verif.Props.Order
import Verif.Props.Deadline
import Verif.Props.Defaults
import Verif.Props.Forget
import Verif.Props.Leaving
import Verif.Props.SetOnce
import Verif.Props.Settle
import Verif.Props.KeyDerivation
import Verif.Props.Whole
import Verif.Props.WholeWorld
import Verif.Props.Replies
import Verif.Props.System
import Verif.Props.SystemWorld
import Verif.Props.Load
import Verif.Props.LoadWorld
import Verif.Props.FilterRate
import Verif.Props.Progress
import Verif.Props.ProgressWorld
import Verif.Props.Managed
import Verif.Props.ManagedWorld
import Verif.Props.QueueDelayF64
import Verif.Props.QueueTail
import Verif.Props.SendingF64
import Verif.Props.Connections
import Verif.Props.Overflow
import Verif.Props.Altered
import Verif.Props.Phases
import Verif.Props.Forged
import Verif.Props.Unlinkable
import Verif.Props.Timely
import Verif.Props.Punctual
import Verif.Props.Patient
import Verif.Props.Lifetime
import Verif.Props.Mixing
import Verif.Props.MeanTimes
import Verif.Props.Instances
