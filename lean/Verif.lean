import Verif.Model.Addresses
import Verif.Model.Auth
import Verif.Model.AuthConc
import Verif.Model.AuthText
import Verif.Model.Avl
import Verif.Model.Base
import Verif.Model.Blackbox
import Verif.Model.Client
import Verif.Model.Conc
import Verif.Model.Config
import Verif.Model.Diode
import Verif.Model.Door
import Verif.Model.EndToEnd
import Verif.Model.Engine
import Verif.Model.EngineRange
import Verif.Model.EnvelopeJson
import Verif.Model.Float
import Verif.Model.FloatShort
import Verif.Model.Hash
import Verif.Model.Heap
import Verif.Model.JsonText
import Verif.Model.Lifecycle
import Verif.Model.Marshal
import Verif.Model.MetaCluster
import Verif.Model.MetaEnd
import Verif.Model.Names
import Verif.Model.Nozzle
import Verif.Model.NozzleCluster
import Verif.Model.Num
import Verif.Model.Oauth2
import Verif.Model.Options
import Verif.Model.PromClient
import Verif.Model.Promql
import Verif.Model.Protobuf
import Verif.Model.Proxy
import Verif.Model.ProxyMeta
import Verif.Model.Prune
import Verif.Model.Query
import Verif.Model.QueryDoor
import Verif.Model.Reader
import Verif.Model.Routing
import Verif.Model.Scheduler
import Verif.Model.Semver
import Verif.Model.ServiceOptions
import Verif.Model.Standalone
import Verif.Model.Status
import Verif.Model.Store
import Verif.Model.Store64
import Verif.Model.Syslog
import Verif.Model.SyslogCluster
import Verif.Model.SyslogMetric
import Verif.Model.SyslogParse
import Verif.Model.SyslogServer
import Verif.Model.SyslogStream
import Verif.Model.Times
import Verif.Model.Tls
import Verif.Model.Url
import Verif.Model.Walk
import Verif.Model.WalkHttp
import Verif.Spec.Auth
import Verif.Spec.AuthConc
import Verif.Spec.AuthText
import Verif.Spec.Blackbox
import Verif.Spec.Client
import Verif.Spec.Cluster
import Verif.Spec.Conc
import Verif.Spec.ConcMeta
import Verif.Spec.Config
import Verif.Spec.Crash
import Verif.Spec.Depth
import Verif.Spec.Determined
import Verif.Spec.Diode
import Verif.Spec.Door
import Verif.Spec.EndToEnd
import Verif.Spec.Engine
import Verif.Spec.EngineRange
import Verif.Spec.EnvelopeFormat
import Verif.Spec.EnvelopeJson
import Verif.Spec.Float
import Verif.Spec.Hash
import Verif.Spec.Heal
import Verif.Spec.History
import Verif.Spec.HttpWire
import Verif.Spec.JsonGrammar
import Verif.Spec.JsonNumber
import Verif.Spec.JsonText
import Verif.Spec.Lifecycle
import Verif.Spec.Marshal
import Verif.Spec.MetaCluster
import Verif.Spec.MetaCrash
import Verif.Spec.MetaEnd
import Verif.Spec.MetaUser
import Verif.Spec.Nozzle
import Verif.Spec.NozzleCluster
import Verif.Spec.Num
import Verif.Spec.Oauth2
import Verif.Spec.Options
import Verif.Spec.PromClient
import Verif.Spec.Promql
import Verif.Spec.Protobuf
import Verif.Spec.ProxyMeta
import Verif.Spec.PruneCrash
import Verif.Spec.Query
import Verif.Spec.QueryCrash
import Verif.Spec.QueryDoor
import Verif.Spec.QueryEnd
import Verif.Spec.QueryRecover
import Verif.Spec.Read
import Verif.Spec.Routing
import Verif.Spec.Scheduler
import Verif.Spec.Semver
import Verif.Spec.SortedMap
import Verif.Spec.Spread
import Verif.Spec.SpreadEnd
import Verif.Spec.Standalone
import Verif.Spec.Status
import Verif.Spec.StoreView
import Verif.Spec.Syslog
import Verif.Spec.SyslogCluster
import Verif.Spec.SyslogMetric
import Verif.Spec.SyslogParse
import Verif.Spec.SyslogServer
import Verif.Spec.SyslogStream
import Verif.Spec.Times
import Verif.Spec.Tls
import Verif.Spec.Trip
import Verif.Spec.Url
import Verif.Spec.UserCrash
import Verif.Spec.Walk
import Verif.Spec.WalkCrash
import Verif.Spec.WalkGrpc
import Verif.Spec.WalkHttp
import Verif.Spec.WhiteSpace
import Verif.Spec.Window
import Verif.Proof.AuthConc
import Verif.Proof.Avl
import Verif.Proof.Blackbox
import Verif.Proof.Burst
import Verif.Proof.Clean
import Verif.Proof.Client
import Verif.Proof.Cluster
import Verif.Proof.Conc
import Verif.Proof.ConcAlone
import Verif.Proof.ConcExcl
import Verif.Proof.ConcExec
import Verif.Proof.ConcLin
import Verif.Proof.ConcMeta
import Verif.Proof.ConcPrune
import Verif.Proof.Config
import Verif.Proof.Crash
import Verif.Proof.Depth
import Verif.Proof.Diode
import Verif.Proof.Door
import Verif.Proof.Duration
import Verif.Proof.EndToEnd
import Verif.Proof.Engine
import Verif.Proof.EngineRange
import Verif.Proof.EngineSelect
import Verif.Proof.EngineShown
import Verif.Proof.EnvelopeJson
import Verif.Proof.Float
import Verif.Proof.FloatGrammar
import Verif.Proof.FloatOps
import Verif.Proof.FloatPrint
import Verif.Proof.FloatShort
import Verif.Proof.FloatText
import Verif.Proof.FreeKey
import Verif.Proof.Get
import Verif.Proof.Hash
import Verif.Proof.Heap
import Verif.Proof.History
import Verif.Proof.Invariant
import Verif.Proof.JsonGrammar
import Verif.Proof.JsonNumber
import Verif.Proof.JsonText
import Verif.Proof.Maps
import Verif.Proof.Marshal
import Verif.Proof.Num
import Verif.Proof.Oauth
import Verif.Proof.Promql
import Verif.Proof.Protobuf
import Verif.Proof.ProtobufMessages
import Verif.Proof.Prune
import Verif.Proof.PruneCrash
import Verif.Proof.PruneHeal
import Verif.Proof.QueryCrash
import Verif.Proof.Routing
import Verif.Proof.Semver
import Verif.Proof.Series
import Verif.Proof.Spread
import Verif.Proof.Store
import Verif.Proof.SyslogParse
import Verif.Proof.SyslogStream
import Verif.Proof.Times
import Verif.Proof.Trip
import Verif.Proof.Truncate
import Verif.Proof.Url
import Verif.Proof.Walk
import Verif.Proof.WhiteSpace
import Verif.Proof.Witness
import Verif.Props.Addresses
import Verif.Props.Auth
import Verif.Props.AuthConc
import Verif.Props.AuthText
import Verif.Props.AuthTextEdge
import Verif.Props.Blackbox
import Verif.Props.Client
import Verif.Props.ClientMeta
import Verif.Props.Cluster
import Verif.Props.Conc
import Verif.Props.ConcAlone
import Verif.Props.ConcMeta
import Verif.Props.ConcOldest
import Verif.Props.Config
import Verif.Props.Crash
import Verif.Props.Depth
import Verif.Props.Determined
import Verif.Props.Door
import Verif.Props.EndToEnd
import Verif.Props.Engine
import Verif.Props.EngineRange
import Verif.Props.EnvelopeFormat
import Verif.Props.EnvelopeJson
import Verif.Props.EqualTimes
import Verif.Props.Float
import Verif.Props.Float64
import Verif.Props.Forward
import Verif.Props.Forwarding
import Verif.Props.Hash
import Verif.Props.Heal
import Verif.Props.HttpWire
import Verif.Props.JsonGrammar
import Verif.Props.JsonText
import Verif.Props.Lifecycle
import Verif.Props.Marshal
import Verif.Props.MetaCluster
import Verif.Props.MetaCrash
import Verif.Props.MetaEnd
import Verif.Props.MetaUser
import Verif.Props.Metrics
import Verif.Props.Names
import Verif.Props.Nozzle
import Verif.Props.NozzleCluster
import Verif.Props.Oauth2
import Verif.Props.Options
import Verif.Props.OrchCrash
import Verif.Props.PromClient
import Verif.Props.PromEnd
import Verif.Props.Promql
import Verif.Props.Protobuf
import Verif.Props.ProxyMeta
import Verif.Props.Prune
import Verif.Props.Prune64
import Verif.Props.PruneHeal
import Verif.Props.PruneMono
import Verif.Props.Query
import Verif.Props.QueryCrash
import Verif.Props.QueryDoor
import Verif.Props.QueryEnd
import Verif.Props.QueryRecover
import Verif.Props.ReadLimit
import Verif.Props.Reader
import Verif.Props.Routing
import Verif.Props.RoutingUnknown
import Verif.Props.Scheduler
import Verif.Props.Semver
import Verif.Props.SendReturn
import Verif.Props.ServiceOptions
import Verif.Props.Spread
import Verif.Props.SpreadCluster
import Verif.Props.SpreadEnd
import Verif.Props.SpreadFeeds
import Verif.Props.SpreadWalk
import Verif.Props.Standalone
import Verif.Props.Status
import Verif.Props.Store
import Verif.Props.Store64
import Verif.Props.Syslog
import Verif.Props.SyslogCluster
import Verif.Props.SyslogMetric
import Verif.Props.SyslogServer
import Verif.Props.SyslogStream
import Verif.Props.Times
import Verif.Props.Tls
import Verif.Props.Trip
import Verif.Props.Url
import Verif.Props.UserCrash
import Verif.Props.Walk
import Verif.Props.WalkCrash
import Verif.Props.WalkEnds
import Verif.Props.WalkGrpc
import Verif.Props.WalkHttp
import Verif.Props.Window
