import Verif.Props.Stream
import Verif.Props.Basic
import Verif.Props.Message
import Verif.Props.Limits
import Verif.Props.Routing
import Verif.Props.Table
import Verif.Props.Writing
import Verif.Props.Pauses
import Verif.Spec.Cuts
import Verif.Props.Cuts
import Verif.Props.Serving
import Verif.Props.RoundTrip
import Verif.Props.Client
import Verif.Props.Closing
import Verif.Props.ThreadPool
import Verif.Props.ClientPool
import Verif.Props.Net
import Verif.Props.Once
import Verif.Props.Outage
import Verif.Props.Isolation
import Verif.Props.Grouping
import Verif.Props.Backlog
import Verif.Props.FileServer
import Verif.Props.EndToEnd
import Verif.Props.Endless
import Verif.Props.BufStream
import Verif.Props.AcceptLoop
import Verif.Proofs.Conform
import Verif.Proofs.NetConform
import Verif.Props.WholeSystem
import Verif.Proofs.NetUri
import Verif.Spec.Site
import Verif.Props.Site
import Verif.Spec.Progress
import Verif.Proofs.Waiting
import Verif.Proofs.NetReturn
import Verif.Proofs.NetIdle
import Verif.Proofs.NetSettle
import Verif.Props.Progress
import Verif.Props.Busy
import Verif.Spec.Rfc
import Verif.Props.Rfc
import Verif.Spec.Injection
import Verif.Props.Injection
import Verif.Spec.RfcResponse
import Verif.Spec.Registry
import Verif.Props.RfcResponse
import Verif.Proofs.NetConn
import Verif.Spec.Memory
import Verif.Proofs.Memory
import Verif.Props.Memory
import Verif.Model.Tls
import Verif.Spec.Tls
import Verif.Proofs.Tls
import Verif.Proofs.RawInv
import Verif.Props.Tls
import Verif.Spec.InTurns
import Verif.Props.InTurns
import Verif.Model.Shared
import Verif.Spec.Shared
import Verif.Proofs.Shared
import Verif.Proofs.SharedParse
import Verif.Proofs.SharedWrite
import Verif.Proofs.SharedHandle
import Verif.Proofs.SharedStack
import Verif.Proofs.TlsCalm
import Verif.Proofs.TlsOrderly
import Verif.Props.Shared
import Verif.Spec.Interrupt
import Verif.Proofs.Interrupt
import Verif.Props.Interrupt
import Verif.Model.Lifecycle
import Verif.Spec.Lifecycle
import Verif.Proofs.Lifecycle
import Verif.Props.Lifecycle
import Verif.Props.Persistence
import Verif.Props.ClientNew
import Verif.Props.ClientAny
import Verif.Props.ClientReads
import Verif.Props.ClientCalls
import Verif.Props.TlsServer
import Verif.Model.NetAny
import Verif.Spec.NetAny
import Verif.Proofs.NetAny
import Verif.Props.NetAny
import Verif.Tests.Harness
import Verif.Tests.Line
import Verif.Tests.Headers
import Verif.Tests.Body
import Verif.Tests.Message
import Verif.Tests.Request
import Verif.Tests.Response
import Verif.Tests.Server
import Verif.Tests.Router
import Verif.Tests.Endless
import Verif.Tests.ByHand
import Verif.Spec.NetAnyRun
import Verif.Proofs.NetAnyStep
import Verif.Proofs.NetAnyRun
import Verif.Props.NetAnyRun
import Verif.Spec.Sent
import Verif.Proofs.Sent
import Verif.Props.Sent
import Verif.Model.TestServer
import Verif.Spec.TestServer
import Verif.Props.TestServer
import Verif.Spec.TestHttps
import Verif.Props.TestHttps
import Verif.Spec.HttpsEndToEnd
import Verif.Props.HttpsEndToEnd
import Verif.Model.ClientPoolAny
import Verif.Spec.ClientPoolAny
import Verif.Props.ClientPoolAny
import Verif.Props.HttpsCalls
import Verif.Props.Garbled
import Verif.Spec.Closes
import Verif.Proofs.NetCloses
import Verif.Props.Closes
import Verif.Proofs.NetAnyLeft
import Verif.Spec.ClosesAny
import Verif.Proofs.TlsEnds
import Verif.Proofs.NetAnyOpen
import Verif.Proofs.NetAnyCloses
import Verif.Props.ClosesAny
import Verif.Proofs.NetAnyLetGo
import Verif.Props.HttpsTurns
import Verif.Props.HttpsRoomy
import Verif.Props.HttpsCloses
import Verif.Proofs.CutOff
import Verif.Proofs.HeaderLines
import Verif.Proofs.SlowChunks
import Verif.Proofs.SlowLines
import Verif.Props.CutOff
import Verif.Props.Awaited
import Verif.Props.SlowBody
import Verif.Props.PoolProgress
import Verif.Proofs.EndlessChunks
import Verif.Proofs.SlowAnyChunks
import Verif.Props.Limited
import Verif.Props.NotText
