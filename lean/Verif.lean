import Verif.IntervalSet
import Verif.IntervalSpec
import Verif.IntervalProofs
import Verif.PropsInterval
import Verif.CubeModel
import Verif.CubeSpec
import Verif.CubeProofs1
import Verif.CubeProofs2
import Verif.CubeProofs3
import Verif.CubeProofs4
import Verif.CubeProofs5
import Verif.CubeInst
import Verif.PropsCube
import Verif.ConnAlg
import Verif.PolicyModel
import Verif.PolicySpec
import Verif.PolicyProofs
import Verif.LayerProofs
import Verif.ConfigProofs
import Verif.DemoNets
import Verif.StoreProofs
import Verif.PropsPolicy
import Verif.PropsConfig
import Verif.PropsPolicyEx
import Verif.BaseSets
import Verif.PropsBaseSets
import Verif.IpModel
import Verif.IpProofs
import Verif.PropsIp
import Verif.PeerModel
import Verif.PeerProofs
import Verif.PropsPeers
import Verif.SelectorModel
import Verif.PropsSelectors
import Verif.QueryModel
import Verif.QueryLaws
import Verif.QuerySpec
import Verif.QueryProofs
import Verif.QueryProofs2
import Verif.QueryProofs3
import Verif.CubeCong
import Verif.QueryExact
import Verif.PropsQueries
import Verif.DemoNetsQ
import Verif.PropsQueriesEx
import Verif.PropsDiff
import Verif.PropsDiffEx
import Verif.PropsRedundancy
import Verif.PropsRedundancyEx
import Verif.PropsOneConfig
import Verif.PropsOneConfigEx
import Verif.MapModel
import Verif.PropsMap
import Verif.PropsMapEx
import Verif.ReprModel
import Verif.PropsRepr
import Verif.GraphModel
import Verif.PropsGraph
import Verif.PropsDot
import Verif.PropsDotEx
import Verif.LabelModel
import Verif.PropsLabels
import Verif.FwModel
import Verif.FwProofs
import Verif.PropsFw
import Verif.FwCube
import Verif.PropsFwEx
import Verif.ConnNet
import Verif.NamedPorts
import Verif.PropsNamedPorts
import Verif.PropsNamedPortsEx
import Verif.K8sParseModel
import Verif.PropsK8sParse
import Verif.DomChange
import Verif.QueryDom
import Verif.PropsK8sConfig
import Verif.PropsK8sParseEx
import Verif.SyncModel
import Verif.PropsSync
import Verif.CalicoSelModel
import Verif.CalicoSelSpec
import Verif.CalicoSelProofs
import Verif.CalicoSelText
import Verif.CalicoSelAtoms
import Verif.PropsCalicoSel
import Verif.CalicoParseModel
import Verif.CalicoParseSpec
import Verif.CalicoParseProofs
import Verif.CalicoRuleProofs
import Verif.PropsCalicoParse
import Verif.PropsCalicoParseEx
import Verif.CalicoQueryDom
import Verif.PropsCalicoConfig
import Verif.PropsCalicoConfigEx
import Verif.IstioParseModel
import Verif.IstioParseSpec
import Verif.IstioParseProofs
import Verif.IstioOpProofs
import Verif.PropsIstioParse
import Verif.PropsIstioParseEx
import Verif.IstioQueryDom
import Verif.PropsIstioConfig
import Verif.PropsIstioConfigEx
import Verif.IngressModel
import Verif.IngressSpec
import Verif.IngressSvcProofs
import Verif.IngressTextProofs
import Verif.IngressProofs
import Verif.PropsIngress
import Verif.PropsIngressEx
import Verif.PropsIngressConfig
import Verif.PropsIngressConfigEx
import Verif.MinDfaModel
import Verif.MinDfaSpec
import Verif.MinDfaProofs
import Verif.PropsMinDfa
import Verif.PropsMinDfaEx
import Verif.PropsEmptyValue
import Verif.PropsEmptyValueEx
import Verif.SidecarModel
import Verif.SidecarSpec
import Verif.SidecarHosts
import Verif.SidecarProofs
import Verif.PropsSidecar
import Verif.PropsSidecarEx
import Verif.PropsSidecarConfig
import Verif.PropsSidecarConfigEx
import Verif.GatewayModel
import Verif.GatewaySpec
import Verif.GatewayHosts
import Verif.GatewayConds
import Verif.GatewayDests
import Verif.GatewayRoutes
import Verif.GatewayCubes
import Verif.GatewayProofs
import Verif.PropsGateway
import Verif.PropsGatewayEx
import Verif.PropsGatewayBad
import Verif.GatewayKeys
import Verif.PropsGatewayConfig
import Verif.PropsGatewayConfigEx
import Verif.TopologyModel
import Verif.TopologySpec
import Verif.TopologyForms
import Verif.TopologyProofs
import Verif.TopologyRead
import Verif.PropsTopology
import Verif.PropsTopologyBad
import Verif.TopologyTwins
import Verif.PropsTwins
import Verif.PropsTwinsConfig
import Verif.PropsTopologyEx
import Verif.ProfileModel
import Verif.PropsProfiles
import Verif.PropsProfilesConfig
import Verif.PropsProfilesEx
import Verif.CidrModel
import Verif.CidrProofs
import Verif.PropsCidr
import Verif.PropsCidrText
import Verif.PropsCidrNames
import Verif.RunnerModel
import Verif.PropsRunner
import Verif.PropsExpected
import Verif.PropsScheme
import Verif.PropsCli
import Verif.PropsCliEx
import Verif.SanityModel
import Verif.PropsSanity
import Verif.PropsSanityIssues
import Verif.PropsSanityWhy
import Verif.PropsSanityEx
import Verif.SourcesModel
import Verif.PropsSources
import Verif.PropsSourcesTopo
import Verif.PropsSourcesRun
import Verif.PropsSourcesFind
import Verif.PropsSourcesEx
import Verif.ExplModel
import Verif.PropsExpl
import Verif.PropsExplRun
import Verif.PropsExplText
import Verif.PropsExplEx
import Verif.LegendModel
import Verif.PropsLegend
import Verif.PropsLegendDraw
import Verif.PropsLegendEx
import Verif.PlainModel
import Verif.PropsPlainList
import Verif.PropsPlainListEx
import Verif.PlainPeers
import Verif.PropsPlainPeers
import Verif.PropsPlainPeersEx
import Verif.K8sGood
import Verif.PropsPlainK8s
import Verif.PropsPlainK8sEx
import Verif.PropsQueriesK8s
import Verif.PropsQueriesK8sEx
import Verif.PropsOneK8s
import Verif.PropsOneK8sEx
import Verif.PropsCapturedK8s
import Verif.PropsCapturedK8sEx
import Verif.PropsDisjointK8s
import Verif.PropsDisjointK8sEx
