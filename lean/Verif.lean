import Verif.Lemmas.Basic
import Verif.Lemmas.Boot
import Verif.Lemmas.Cmd
import Verif.Lemmas.ConfNpl
import Verif.Lemmas.Core
import Verif.Lemmas.CoreCost
import Verif.Lemmas.CoreHops
import Verif.Lemmas.CoreRun
import Verif.Lemmas.Daemon
import Verif.Lemmas.DaemonRun
import Verif.Lemmas.Dijkstra
import Verif.Lemmas.Fib
import Verif.Lemmas.FibInv
import Verif.Lemmas.FibRun
import Verif.Lemmas.Forward
import Verif.Lemmas.Greet
import Verif.Lemmas.LinkState
import Verif.Lemmas.LinkStateRoutes
import Verif.Lemmas.Lsdb
import Verif.Lemmas.LsdbChange
import Verif.Lemmas.LsdbEff
import Verif.Lemmas.LsdbInv
import Verif.Lemmas.LsdbKeep
import Verif.Lemmas.LsdbOwn
import Verif.Lemmas.LsdbOwnAdj
import Verif.Lemmas.LsdbSeq
import Verif.Lemmas.LsdbStep
import Verif.Lemmas.LsdbStorage
import Verif.Lemmas.LsdbView
import Verif.Lemmas.NameMap
import Verif.Lemmas.Names
import Verif.Lemmas.Nbr
import Verif.Lemmas.NbrInv
import Verif.Lemmas.NbrTime
import Verif.Lemmas.Net
import Verif.Lemmas.NetObtain
import Verif.Lemmas.NetRun
import Verif.Lemmas.NexthopList
import Verif.Lemmas.Node
import Verif.Lemmas.NodeCut
import Verif.Lemmas.Npt
import Verif.Lemmas.NptCost
import Verif.Lemmas.NptOut
import Verif.Lemmas.NptRun
import Verif.Lemmas.NptSome
import Verif.Lemmas.NptWithin
import Verif.Lemmas.Obtained
import Verif.Lemmas.Outsider
import Verif.Lemmas.Path
import Verif.Lemmas.PrefixMap
import Verif.Lemmas.Print
import Verif.Lemmas.PrintAll
import Verif.Lemmas.PrintNum
import Verif.Lemmas.PrintParts
import Verif.Lemmas.Rib
import Verif.Lemmas.Round
import Verif.Lemmas.Router
import Verif.Lemmas.RouterInv
import Verif.Lemmas.RouterNpt
import Verif.Lemmas.RouterOwn
import Verif.Lemmas.RtWire
import Verif.Lemmas.Schema
import Verif.Lemmas.Segments
import Verif.Lemmas.SeqFile
import Verif.Lemmas.Tlv
import Verif.Lemmas.Trust
import Verif.Lemmas.Uri
import Verif.Lemmas.Wire
import Verif.Lemmas.World
import Verif.Model.Access
import Verif.Model.Adjacency
import Verif.Model.Basic
import Verif.Model.Boot
import Verif.Model.CertStore
import Verif.Model.Cmd
import Verif.Model.Conf
import Verif.Model.Core
import Verif.Model.Daemon
import Verif.Model.Dbl
import Verif.Model.DecodeInto
import Verif.Model.Directed
import Verif.Model.Fib
import Verif.Model.Hyperbolic
import Verif.Model.Info
import Verif.Model.LinkState
import Verif.Model.LsaWire
import Verif.Model.Lsdb
import Verif.Model.NameMap
import Verif.Model.Names
import Verif.Model.Nbr
import Verif.Model.Net
import Verif.Model.NetCmd
import Verif.Model.NexthopList
import Verif.Model.Nfd
import Verif.Model.Nlsrc
import Verif.Model.NlsrcMain
import Verif.Model.Npl
import Verif.Model.Npt
import Verif.Model.Num
import Verif.Model.Outsider
import Verif.Model.PrefixMap
import Verif.Model.Print
import Verif.Model.Register
import Verif.Model.Round
import Verif.Model.Router
import Verif.Model.RoutingTable
import Verif.Model.Schema
import Verif.Model.Security
import Verif.Model.Segments
import Verif.Model.SeqFile
import Verif.Model.Start
import Verif.Model.Stats
import Verif.Model.Sync
import Verif.Model.Tlv
import Verif.Model.Uri
import Verif.Model.WireCache
import Verif.Props.Access
import Verif.Props.Adjacency
import Verif.Props.Boot
import Verif.Props.Calc
import Verif.Props.Capture
import Verif.Props.CertHistory
import Verif.Props.CertServe
import Verif.Props.CertStore
import Verif.Props.Cmd
import Verif.Props.CmdFile
import Verif.Props.Conf
import Verif.Props.ConfMinus
import Verif.Props.ConfNames
import Verif.Props.ConfOk
import Verif.Props.ConfWords
import Verif.Props.Converged
import Verif.Props.Costs
import Verif.Props.Daemon
import Verif.Props.DecodeInto
import Verif.Props.Details
import Verif.Props.Details2
import Verif.Props.Directed
import Verif.Props.Ends
import Verif.Props.Faces
import Verif.Props.FacesFirst
import Verif.Props.Fib
import Verif.Props.FibHist
import Verif.Props.FibRetry
import Verif.Props.Grammar
import Verif.Props.Greet
import Verif.Props.Handed
import Verif.Props.Hello
import Verif.Props.HelloAnnounced
import Verif.Props.HelloDown
import Verif.Props.HelloLedger
import Verif.Props.HelloName
import Verif.Props.HelloUp
import Verif.Props.HypForward
import Verif.Props.Hyperbolic
import Verif.Props.LinkState
import Verif.Props.LsaStats
import Verif.Props.LsaStats2
import Verif.Props.Lsdb
import Verif.Props.LsdbAsk
import Verif.Props.LsdbBuild
import Verif.Props.LsdbContent
import Verif.Props.LsdbFetch
import Verif.Props.LsdbInterest
import Verif.Props.LsdbSeqs
import Verif.Props.LsdbTimers
import Verif.Props.Names
import Verif.Props.Nest
import Verif.Props.Net
import Verif.Props.NetCmd
import Verif.Props.NetForward
import Verif.Props.NetGaps
import Verif.Props.NetHyp
import Verif.Props.NetPrefix
import Verif.Props.NetSettles
import Verif.Props.NexthopList
import Verif.Props.Nlsrc
import Verif.Props.NlsrcData
import Verif.Props.NlsrcExit
import Verif.Props.NlsrcMain
import Verif.Props.NplList
import Verif.Props.Npt
import Verif.Props.NptFlags
import Verif.Props.NptSome
import Verif.Props.NumText
import Verif.Props.Outsider
import Verif.Props.Print
import Verif.Props.PutOff
import Verif.Props.Register
import Verif.Props.Round
import Verif.Props.Router
import Verif.Props.RouterLinks
import Verif.Props.RoutingTable
import Verif.Props.Schema
import Verif.Props.Security
import Verif.Props.Segments
import Verif.Props.SeqFile
import Verif.Props.SeqFileAdj
import Verif.Props.Serve
import Verif.Props.Silent
import Verif.Props.Start
import Verif.Props.Stats
import Verif.Props.Survive
import Verif.Props.Sync
import Verif.Props.Tlv
import Verif.Props.Trust
import Verif.Props.WireCache
import Verif.Props.WireCache2
import Verif.Props.WireCache3
import Verif.Props.Withdrawn
import Verif.Props.World
import Verif.Spec.ConfOk
import Verif.Spec.Grammar
import Verif.Spec.Graph
import Verif.Spec.LinkState
import Verif.Spec.NumText
import Verif.Axioms
