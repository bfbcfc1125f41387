import Verif.Props.Buffer
import Verif.Props.Names
import Verif.Props.Wire
import Verif.Props.Decode
import Verif.Props.Net
import Verif.Props.Pool
import Verif.Props.Zone
import Verif.Props.Loader
import Verif.Props.Nameserver
import Verif.Props.EndToEnd
import Verif.Props.Cache
import Verif.Props.ResolverParts
import Verif.Props.Referrals
import Verif.Props.Lookup
import Verif.Props.ResolverServer
import Verif.Props.Conf
import Verif.Props.ZoneText
import Verif.Props.ZoneLines
import Verif.Props.Server
import Verif.Props.ServerTcp
import Verif.Props.Trace
import Verif.Props.TraceDepth
import Verif.Props.Garbage
import Verif.Props.Truth
import Verif.Props.Delegation
import Verif.Props.Repeat
import Verif.Props.Together
import Verif.Props.Bounded
import Verif.Props.Framing
import Verif.Props.FramingZones
import Verif.Spec.WellRun
import Verif.Lemmas.WellRun
import Verif.Lemmas.WellServed
import Verif.Lemmas.WellLed
import Verif.Lemmas.WellFound
import Verif.Props.WellRun
import Verif.Spec.Client
import Verif.Props.Client
import Verif.Model.Tasks
import Verif.Spec.Threads
import Verif.Lemmas.Tasks
import Verif.Lemmas.Threads
import Verif.Props.Threads
import Verif.Props.Serving
import Verif.Spec.Age
import Verif.Lemmas.Age
import Verif.Props.Age
import Verif.Lemmas.Modes
import Verif.Props.LongChain
import Verif.Spec.Network
import Verif.Props.Network
import Verif.Lemmas.ZoneSame
import Verif.Lemmas.Tokens8
import Verif.Spec.Layout
import Verif.Lemmas.Layout
import Verif.Props.Layout
import Verif.Spec.AgeThreads
import Verif.Lemmas.AgeThreads
import Verif.Props.AgeThreads
import Verif.Spec.Asks
import Verif.Lemmas.Asks
import Verif.Props.Asks
import Verif.Spec.Accepts
import Verif.Lemmas.Accepts
import Verif.Props.Accepts
import Verif.Spec.Expected
import Verif.Props.Expected
import Verif.Spec.UdpTcp
import Verif.Lemmas.UdpTcp
import Verif.Props.UdpTcp
import Verif.Spec.Queries
import Verif.Lemmas.Wireable
import Verif.Props.Queries
import Verif.Spec.Told
import Verif.Props.Told
import Verif.Spec.Cost
import Verif.Lemmas.Cost
import Verif.Props.Cost
import Verif.Spec.OnlyQuestion
import Verif.Spec.Mismatch
import Verif.Lemmas.OnlyQuestion
import Verif.Lemmas.Cached
import Verif.Props.OnlyQuestion
import Verif.Props.Cached
import Verif.Props.Mismatch
import Verif.Spec.Dots
import Verif.Spec.Bounce
import Verif.Props.Dots
import Verif.Props.Bounce
import Verif.Props.SameAnswer
import Verif.Props.UnitTests
import Verif.Spec.SameServer
import Verif.Spec.Tc
import Verif.Props.SameServer
import Verif.Props.Tc
import Verif.Props.Workers
import Verif.Spec.LastOwner
import Verif.Props.LastOwner
import Verif.Spec.Whole
import Verif.Props.Whole
import Verif.Spec.NoData
import Verif.Props.NoData
import Verif.Model.Daemon
import Verif.Lemmas.Daemon
import Verif.Spec.Daemon
import Verif.Props.Daemon
import Verif.Props.Everyone
import Verif.Spec.Progress
import Verif.Props.Progress
import Verif.Spec.Order
import Verif.Props.Order
import Verif.Spec.Escapes
import Verif.Props.Escapes
import Verif.Spec.Echo
import Verif.Props.Echo
