# Formal model of network-config-analyzer (NCA)

The program reads the network policies of a cluster (Kubernetes, Calico, Istio, Ingress, Gateway) and answers questions
about the connections they allow.  This directory holds a model of its code in Lean 4 and machine-checked proofs of
the claims in `properties.jsonl`.  `MANIFEST.json` names the theorems per claim.  `seeded/LOG.jsonl` records wrong
programs the theorems were tried on.  There `helper_lemmas_failed` lists the declarations whose proofs no longer check
and `theorems_failed` the claims among them together with the claims that use one of them.  A proof that fails is not
yet a claim that is false: each edit was chosen by hand because it makes the claim named there false.  Entries with a `note` say when a
mutant turned out invalid.

## 1. How the model is made

* The code is modelled function by function.  Every definition has a comment with the file and lines in /repo and
  states its simplifications.
* Loops are folds or structural recursion.  Loops without an evident bound have a fuel argument together with a proof
  that the fuel suffices (or the theorem covers any fuel).
* In-place changes are functions that return the new value.  Where the code depends on sharing, this is said.
* Exceptions are values (`Option.none` or an error constructor).  Theorems say when they occur.
* Python sets and dictionaries are lists.  Where the order of iteration can matter, it is an arbitrary parameter and
  the theorems hold for every order.
* The specification of each claim is written separately from the model, in terms of single points: integers,
  addresses, pods, connections.  For example `configAllows` says of one connection whether a configuration
  allows it, and mentions no connection sets.
* Connection sets appear twice.  `CubeModel` models `CanonicalHyperCubeSet` and `ConnectivityProperties` themselves.
  Policies, layers, queries and outputs are modelled over an abstract algebra (`ConnAlg.CAlg`, `Net`, `NetQ`, `FwNet`)
  with laws; `ConnAlg`, `QueryLaws`, `QueryExact` and `FwCube` prove that the hyper-cube sets have these laws.  So
  the theorems hold for the sets the code uses.

## 2. Modules (lean/Verif)

| Part | Code in /repo/nca | Model | Specification and proofs |
|---|---|---|---|
| Interval sets | CoreDS/CanonicalIntervalSet.py | `IntervalSet` | `IntervalSpec`, `IntervalProofs`, `PropsInterval` |
| Hyper-cube sets | CoreDS/CanonicalHyperCubeSet.py, operators of CoreDS/ConnectivityProperties.py | `CubeModel`, `CubeInst` | `CubeSpec`, `CubeProofs1`-`5`, `CubeCong`, `PropsCube` |
| Ports, protocols, methods | CoreDS/PortSet.py, ProtocolSet.py, ProtocolNameResolver.py, MethodSet.py | `BaseSets` | `PropsBaseSets` |
| IP blocks | CoreDS/Peer.py 193-441 | `IpModel` | `IpProofs`, `PropsIp` |
| Peer sets | CoreDS/Peer.py 521-811 | `PeerModel` | `PeerProofs`, `PropsPeers` |
| Named ports | CoreDS/ConnectivityProperties.py 51-72, 255-345, CoreDS/Peer.py 100-150 | `ConnNet`, `NamedPorts` | `PropsNamedPorts(Ex)` |
| Kubernetes policies | Parsers/K8sPolicyYamlParser.py 260-436 | `K8sParseModel` | `PropsK8sParse(Ex)`, `PropsK8sConfig`, `K8sGood` |
| Domain of a query, restoring | NetworkConfigQuery.py 60-100, NetworkPolicy.py 57-112 and 189-219, `sync_props` | `DomChange`, `QueryDom`, `SyncModel` | `QueryDom`, `PropsSync` |
| Label selectors, peers of rules | NetworkConfig/PeerContainer.py, Parsers/K8sPolicyYamlParser.py 118-258 | `SelectorModel` | `PropsSelectors` |
| Calico selectors | Parsers/CalicoPolicyYamlParser.py 37-227 | `CalicoSelModel` | `CalicoSelSpec`, `CalicoSelProofs`, `CalicoSelText`, `CalicoSelAtoms`, `PropsCalicoSel` |
| Calico policies | Parsers/CalicoPolicyYamlParser.py 231-669, CalicoNetworkPolicy.py 25-68 | `CalicoParseModel` | `CalicoParseSpec`, `CalicoParseProofs`, `CalicoRuleProofs`, `PropsCalicoParse`, `PropsCalicoParseEx` |
| Istio authorization policies | Parsers/IstioPolicyYamlParser.py, IstioGenericYamlParser.py 30-77, PeerContainer.py 271-282 | `IstioParseModel` | `IstioParseSpec`, `IstioParseProofs`, `IstioOpProofs`, `PropsIstioParse`, `PropsIstioParseEx` |
| Configurations of Calico policies | CalicoNetworkPolicy.py, NetworkPolicy.py 105-113 and 189-204, NetworkLayer.py 204-245, NetworkConfigQuery.py 74-87 | `PropsCalicoConfig` | `CalicoQueryDom` (rules in the domain of a query), `PropsCalicoConfig`, `PropsCalicoConfigEx` |
| Configurations with authorization policies | PoliciesFinder.py 68-139, IstioNetworkPolicy.py, NetworkLayer.py 248-330, NetworkPolicy.py 189-204 | `PropsIstioConfig` | `IstioQueryDom` (rules in the domain of a query), `PropsIstioConfig`, `PropsIstioConfigEx` |
| Services | Parsers/K8sServiceYamlParser.py, K8sService.py, PeerContainer.py 227-237 and 341-386 | `IngressModel` | `IngressSpec`, `IngressSvcProofs` |
| Ingress resources | Parsers/IngressPolicyYamlParser.py, GenericGatewayYamlParser.py | `IngressModel` | `IngressSpec`, `IngressTextProofs`, `IngressProofs`, `PropsIngress`, `PropsIngressEx` |
| Configurations with Ingress resources | GatewayPolicy.py, PoliciesFinder.py 68-139, NetworkLayer.py 202-245 and 306-308 | `PropsIngressConfig` | `PropsIngressConfig`, `PropsIngressConfigEx` |
| Sidecars | Parsers/IstioSidecarYamlParser.py, IstioSidecar.py, PeerContainer.py 198-271, CoreDS/Peer.py 476 and 506-520 | `SidecarModel` | `SidecarSpec`, `SidecarHosts`, `SidecarProofs`, `PropsSidecar`, `PropsSidecarEx` (configurations: `PropsSidecarConfig`, `PropsSidecarConfigEx`) |
| Gateways | Parsers/IstioGatewayYamlParser.py, IstioVirtualServiceYamlParser.py, IstioGatewayPolicyGenerator.py, GenericGatewayYamlParser.py 59-70, OtherResources/Gateway.py, VirtualService.py | `GatewayModel` | `GatewaySpec`, `GatewayHosts`, `GatewayConds`, `GatewayDests`, `GatewayRoutes`, `GatewayCubes`, `GatewayProofs`, `PropsGateway`, `PropsGatewayEx`, `PropsGatewayBad` |
| Configurations with gateways | IstioGatewayPolicyGenerator.py 172-195 and 294-296, PoliciesFinder.py 68-139, NetworkConfig.py 35-36, NetworkLayer.py 248-300 | `PropsGatewayConfig` | `GatewayKeys`, `PropsGatewayConfig`, `PropsGatewayConfigEx` |
| Policies, layers, configurations | Resources/PolicyResources/*.py, NetworkConfig/NetworkLayer.py, NetworkConfig.py | `ConnAlg`, `PolicyModel` | `PolicySpec`, `PolicyProofs`, `StoreProofs`, `LayerProofs`, `ConfigProofs`, `PropsPolicy`, `PropsConfig`, `PropsPolicyEx` |
| Queries | NetworkConfig/NetworkConfigQuery.py | `QueryModel`, `MapModel` | `QuerySpec`, `QueryLaws`, `QueryExact`, `QueryProofs`-`3`, `PropsQueries(Ex)`, `PropsDiff(Ex)`, `PropsQueriesK8s(Ex)`, `PropsRedundancy(Ex)`, `PropsOneConfig(Ex)`, `PropsOneK8s(Ex)`, `PropsCapturedK8s(Ex)`, `PropsDisjointK8s(Ex)`, `PropsMap(Ex)` |
| Printed connections | CoreDS/ConnectivityProperties.py 74-145, 490-530 | `ReprModel` | `PropsRepr` |
| Connectivity graph | FWRules/ConnectivityGraph.py, FWRules/DotGraph.py | `GraphModel` | `PropsGraph`, `PropsDot(Ex)` |
| Label groups | FWRules/ClusterInfo.py, FWRule.py, MinimizeCsFWRules.py 413-475 | `LabelModel` | `PropsLabels` |
| Namespaces and endpoints | NetworkConfig/TopologyObjectsFinder.py, CoreDS/Peer.py 12-188, 290-297, 456-504, Parsers/IstioServiceEntryYamlParser.py, ResourcesHandler.py 384-424 | `TopologyModel`, `TopologySpec` | `TopologyForms`, `TopologyProofs`, `TopologyRead`, `PropsTopology(Bad, Ex)` |
| Full clusters | the same | `TopologyTwins`, `PropsTwins` | `PropsTwins`, `PropsTwinsConfig` |
| Documents and profiles | NetworkConfig/PoliciesFinder.py 34-43, 68-160, NetworkPolicy.py 221-263, GenericYamlParser.py 133-163, CalicoPolicyYamlParser.py 532-656, PeerContainer.py 82-84, 284-300 | `ProfileModel` | `PropsProfiles`, `PropsProfilesConfig`, `PropsProfilesEx` |
| Texts of addresses | CoreDS/Peer.py 308-331, CoreDS/CanonicalIntervalSet.py 38-47, and `summarize_address_range`, `_compress_hextets`, `_string_from_ip_int` of CPython's ipaddress.py | `CidrModel` | `CidrProofs`, `PropsCidr`, `PropsCidrText`, `PropsCidrNames` |
| Runs and exit status | NetworkConfig/NetworkConfigQueryRunner.py, SchemeRunner.py 77-256, nca_cli.py 85-248, 338-352, NetworkConfig/NetworkConfigQuery.py 29-99, NetworkConfig/NetworkConfig.py 83-140 | `RunnerModel` | `PropsRunner`, `PropsExpected`, `PropsScheme`, `PropsCli`, `PropsCliEx` |
| Sanity query | NetworkConfig/NetworkConfigQuery.py 430-670, Resources/PolicyResources/CalicoNetworkPolicy.py 195-277, K8sNetworkPolicy.py 127-159, IstioNetworkPolicy.py 144-185, NetworkPolicy.py 268-282 | `SanityModel` | `PropsSanity`, `PropsSanityIssues`, `PropsSanityWhy`, `PropsSanityEx` |
| Sources of resources | NetworkConfig/ResourcesHandler.py 41-352, 387-419, PoliciesFinder.py 32-34, 80, 99, Parsers/K8sPolicyYamlParser.py 170-182, IstioGatewayYamlParser.py 69-86, IngressPolicyYamlParser.py 269-273 | `SourcesModel` | `PropsSources`, `PropsSourcesTopo`, `PropsSourcesRun`, `PropsSourcesFind`, `PropsSourcesEx` |
| Explanations | Utils/ExplTracker.py, PoliciesFinder.py 115-126, TopologyObjectsFinder.py 116-117, 172-177, NetworkLayer.py 205-229, NetworkConfigQuery.py 776-777, SchemeRunner.py 186-197 | `ExplModel` | `PropsExpl`, `PropsExplRun`, `PropsExplText`, `PropsExplEx` |
| Legend of graphs | FWRules/DotGraph.py | `LegendModel` | `PropsLegend`, `PropsLegendDraw`, `PropsLegendEx` |
| Plain list of connections | FWRules/ConnectivityGraph.py 37-70, 306-335, NetworkConfigQuery.py 796-838, 868-880, 906-920; its peers: CoreDS/Peer.py 544-555, 731-787, ConnectivityCube.py 128-140 | `PlainModel`, `PlainPeers` | `PropsPlainList(Ex)`, `PropsPlainPeers(Ex)`, `PropsPlainK8s(Ex)` |
| Firewall rules | FWRules/MinimizeFWRules.py 131-206, MinimizeCsFWRules.py | `FwModel`, `FwCube` | `FwProofs`, `PropsFw(Ex)` |
| Sets of strings | CoreDS/MinDFA.py, CoreDS/DimensionsManager.py 76-98 | `MinDfaModel`, `MinDfaSpec` | `MinDfaProofs`, `PropsMinDfa(Ex)` |
| Rectangles | CoreDS/ConnectivityProperties.py 48-71, ConnectivityCube.py 168-199 | `PropsEmptyValue` | `PropsEmptyValue(Ex)` |

`DemoNets` and `DemoNetsQ` are two small concrete structures for examples and counterexamples.  `Demo` uses hyper-cube sets
over four dimensions.  `Plain` uses boolean functions over five peers; a counterexample in `Plain` shows a defect that does
not come from the hyper-cube sets.

## 3. Per claim: what is modelled and how it is proved

| Claim | Modelled | Proof |
|---|---|---|
| C01-C07 interval sets | Lists of (start, end) over `Int`; binary searches as the loops they are. | Invariant `Canonical` by induction over histories; membership by induction over lists; equality by uniqueness of the canonical list. |
| C08-C18 hyper-cube sets | Trees of dictionaries with class tag and active dimensions; all operators of both classes. | Any lawful value algebra (`VAlg.Lawful`; instances for intervals and languages in `CubeInst`). Denotation `Den` of trees; each operation is proved to commute with it, by induction on the list of dimensions. Objects enter through their history `HC.Hist`. |
| C19, C20 ports, protocols, methods | Port numbers, named ports and exclusions; protocol names, numbers and texts. | Refinement to predicates; round trips of texts. |
| C21 IP blocks | Addresses with saturating successor, CIDR arithmetic, all operations. | Order embedding into the integers with a gap between the families commutes with every operation. |
| C22 peer sets | `PeerSet` and the registry of indices `BasePeerSet`. | Reachable registries; round trips in both directions. |
| C23 selectors | Evaluation of pod and namespace selectors, ipBlock peers, network sets. | Specification from the Kubernetes documentation (`SatSel`), per pod. |
| C24-C30 policies | Rules with actions, captured peers, orders, layers with their defaults, tiers of results, filters, `bisect.insort`. | Specification `configAllows`: first matching rule of the first matching policy, per connection. |
| C31, C32 | Equivalence, containment, two-way containment, permits, interferes, intersects, forbids, with the shortcut for equal policies and the comparison of topologies. | Both directions against `configAllows`. C31_k8s_partial, C32_k8s_partial: against `K8sSays` of the texts of the policies, by C45_good_partial and C45_config_partial. |
| C33 | Semantic diff: categories, added and removed connections. | Soundness, completeness, uniqueness of the category. C33_k8s_partial: against the texts of Kubernetes policies; what Kubernetes forbids has an end that a policy selects (`selected_end`), so nothing is missed. |
| C34 | Redundancy of policies and rules, `clone_without_policy`. | Removing one reported item keeps `configAllows`. C34_k8s_partial, C34_k8s_query_partial: policies, both directions, against the texts of Kubernetes policies. |
| C35, C41, C42 | Vacuity, emptiness, disjointness, captured pods, strong equivalence. | Against `configAllows` and captured peers. C35_k8s_partial, C35_disjoint_k8s_partial, C42_k8s_partial, C45_captured_partial: vacuity, disjointness, strong equivalence and captured pods against the texts of Kubernetes policies. |
| C36 | Connectivity map: subsets of peers, split by TCP. | Membership of a connection in the map and in the parts. |
| C37 | Firewall rules: props to peers, containment map, groupings by namespaces, DNS and blocks, labels, rest. | Invariants of the groupings (covered, rest, pairs); `C37_rules` for any options, orders and clusters; laws for hyper-cube sets in `FwCube`. |
| C38 | `ClusterInfo`, label groups, printed label expressions. | Exactness of groups; printed expressions as formulas over labels. |
| C39 | Groups of equal peers, cliques, bicliques, two-headed edges, `DotGraph` parts. | Specification: what a reader sees (`Dot.says`). The cliques found by networkx are an arbitrary list. |
| C40 | Simplified representation, texts of ports and sets. | Denotation of the printed cubes; injectivity of the texts. |
| C43 | Named ports of pods, registry of pods, resolution of names per destination, over the ten real dimensions (`connNet`). | Loop invariant over the destinations; specification: the destination pod gives the name to the port. |
| C44 | Parsing of ports, peers, rules and specs of Kubernetes policies into peer sets and connection sets. | Specification over one connection (`Applies`, `PeerSays`, `PortSays`, `RuleSays`), without sets; C22, C23 and C43 composed; folds over peers and ports. |
| C45 | Policies parsed from texts put into the configuration of C27 over the ten real dimensions. | `K8sSays` over the texts; composition of C44 and `C27_additive`.  Policies are parsed under the default domain and evaluated, reduced, under the domain of a query. C45_good_partial: the configuration meets `Config.Good` and `Config.Solid`, which the theorems on queries and maps ask for. |
| C46 | The domain of a query; reduction of rules by it; a heap of rules and policies with saved copies and lazily computed sets; queries as programs that read them. | `HC.rebase`: a canonical set that misses some peer keeps its first dimension active, and reduction by a smaller domain keeps its points; idempotence of saving and restoring; induction over the program and over the sequence of queries. |
| C47 | Texts as lists of characters: stripping, removal of brackets, splitting at `||` and `&&` with even brackets, the regular expressions of single expressions, evaluation. Python's classes of characters are any pair with the facts of `CharCls.Ok`. | Grammar `Text` and meaning `Sel.Holds` from Calico's documentation. Depth of brackets of every prefix; splitting at depth zero is unique; induction over the text. |
| C48 | `parse_policy`, rules, entity rules, ports, protocols, ICMP, types and selected peers, down to the connection sets of the rules. | `RuleSays`, `Applies`, `Governs…` speak of one connection between two places (pods or addresses) and of the texts' meaning. Peers by C22, C23 and C47, ports by C19, protocols by C20, cubes with named ports as in C43; a free index shows that subtraction is exact. |
| C49 | Documents → parsed policies (C44, C48) → reduced by a query (C46) → store and layers (C25, C29). | `Item.Captures`, `Item.Verdict`, `Decides`, `EndAllows` speak of the meaning of texts, of one connection and of the place of a policy in the configuration; nothing of connection sets. The parsed rules are shown to be in canonical form (`Tidy`), so that the reduction keeps their meaning; the deciding policy of the sorted list is the first by rank and position (`leads_sorted`). |
| C50 | `parse_policy`, rules, sources, operations, conditions, value matching, principals, the regular expressions written for hosts and paths, selected peers, down to the connection sets of the rules. | `SourceSays`, `OperationSays`, `ConditionSays`, `RuleSays`, `AuthApplies` speak of one request (two places, protocol, port, method, host, path) and of value matching as Istio documents it (`Matches`). Every element of a connection set between known places is a request (`C50_every_point`). The texts of the regular expressions are those of sequences of characters and classes whose words are the matching ones (`strValue_sem`); a free index shows that the rules are in canonical form. |
| C51 | Documents of all three kinds in the parse queue → parsed policies (C44, C48, C50) → reduced by a query (C46) → store and layers (C25, C28, C29). | `IstioSays` is the evaluation of the documentation of Istio over the texts (`AuthText.Applies`, `Denies`, `Matches`), `CalicoSays` (C49) that of Kubernetes and Calico. Each parsed policy has the meaning of its text (`AuthFits`, `Fits`); the layer of Istio is reduced to the two statements "a DENY/ALLOW policy matches" (C28) and the kinds of the two ends (`istio_cases`). |
| C52 | `parse_service`, the ports of services, `_set_services_and_populate_target_pods`. | `Picks` (labels and namespace), `TargetIs` (numbers, names of ports of the pod). The loop over pods and ports is proved to keep the pods with all ports (`C52_target_pods`); if all have them, these are the picked pods. |
| C53 | `parse_policy`, rules, backends, hosts, paths, `segregate_longest_paths_and_make_dfa`, `_make_default_connections`, `_make_allow_rules`, down to the connection sets. | `Routes` speaks of one request and of matching as Kubernetes documents it: hosts by label, paths by elements, the longest path decides, exact before prefix, else the default backend. `C53_reads` says for *every* host what the parser's policy allows (`Forwards`, with the errors); `routes_iff` shows it is `Routes` on the tame texts. Subtractions of path languages are related to "the longest wins" by induction over the sorted paths. |
| C54 | Policies and Ingress resources in the parse queue → C51's configuration and the layer of Ingress resources. | `split_layer`: the configuration without the policies of a layer, and that layer (C29). `gateway_layer` computes the layer from the meaning of each resource (`IngressFits`). |
| C55 | The objects of class `MinDFA` with their marks and references, and the memo tables, as a heap; every method as a step; entries of the tables may be dropped at any time. | `Call.Asks` is the language operation. An invariant of heaps relates marks, complements and memo entries to the words of the dimension of each object. `C55_refines_partial`: the operators give the results of an algebra of automata without marks and tables, which is lawful (`C55_algebra_lawful`), as C50 and C53 assume of hosts and paths. |
| C56 | `_make_conn_props_no_named_ports_resolution`, `is_empty`, with the empty value of each dimension. | Every coordinate is in its value; by the histories of C08. |
| C57 | `parse_policy`, hosts, `get_istio_sidecars`, `create_opt_egress_props` with `combine_peer_sets_by_ns`, down to the connection sets of the rules. | `Governs` (which Sidecar is the one of a workload), `Exposes`, `Reaches` speak of places, texts of hosts, services and DNS entries. An invariant of the parser's state (`StateIs`) over the list of resources gives the selected workloads; each host is read as namespace and name (`partition_sem`, `pattern_sem`, `dns_reads`); the loop over namespaces is proved by induction over the number of workloads left. |
| C58 | The policies of all other resources, then the sidecars in the order of `get_istio_sidecars` → the layers of C54, with sidecars in Istio's. | `istio_layer` (C51) with sidecars: what is allowed depends on whether some sidecar has a rule for the connection or none restricts the source (`SidecarRuled`, `SidecarFree`); `sidecars_rule` shows that this is `SidecarsSay`, from `SidecarFits` (each policy object has the meaning of its text) and C57_one_sidecar. `C54_config_partial` and `C51_config_partial` are the cases without sidecars. |
| C59 | The parsers of Gateway and VirtualService resources (hosts, gateways, conditions of HTTP, TLS and TCP routes, destinations) and the generator of policies, with their order, down to the connection sets of the rules. | `GatewaySpec` says for one request whether a gateway sends it (`Forwards`: host, gateway, the first route that fits, port of the destination), whether the mesh sends it to the egress gateway (`FromMesh`), when the egress flow is in use and what it keeps pods from (`Kept`). `Cover P R l` relates lists that the code filters, joins and updates to the texts they come from; each step of the parsers and of the generator keeps it (`gateways_sem`, `virtualServices_sem`, `gatewayPols_sem`); `PropsGateway` shows that what the code takes as requests (`AllowF`, `MeshF`) is what the specification says. |
| C60 | The policies of C58 with those of C59 before the sidecars → the layers of C58, with a layer for the policies of gateways. | `GwFits`: each object has the meaning of the policy of C59; policies that allow come first (C59), so the verdict of the layer is `GatewaysSay`. When the names of all policies differ is read from the texts (`VsText.Distinct`): `textKey_inj` reads the parts of a name back from its text, `pols_keys` follows the numbers and destinations of routes through the generator; with C58_accepted_partial this gives which configurations are accepted. |
| C61 | `add_eps_from_yaml` for all kinds of resources, `get_or_update_namespace`, `_add_peer` with the count of `canonical_form`, the loop over documents. | `Member`s are the endpoints that the documents describe; `Describes` says what an object has to know of one. An invariant over the loop (`Offered`): the objects are those of the members seen so far, except members whose form has two objects already. `form_alike` reads kind, namespace, workload, profiles and labels back from the text of the form, so objects of one form are alike. |
| C62 | The result of C61 under the configurations of C49 and C60. | `Full` is the cluster with all pods. `Twins` relates places of two clusters that agree in all that policies look at; every part of the specifications of C44, C48, C49, C50, C53, C57 and C59 respects it (`Twins.calico`, `Twins.istio`, `Twins.ingress`, `Twins.sidecars`, `Twins.gateways`); C61 gives twins for every two places. |
| C63 | The kind of a document, the parse queue (profiles in front), the check of `apiVersion`, profiles and the labels they set, the clearing of labels of earlier configurations. Policies are recorded with the peers as they are when they are parsed. | The queue is the reversed profiles before the other documents (induction over nested lists); a fold gives the labels of each object, and a lookup in them is the first profile of the input with the key. `calicoLabel` is the label of Calico. For configurations: `Twins` between the cluster with all endpoints and their labels (`FullDressed`) and the objects with the labels set, then C49. |
| C64 | `summarize_address_range` with the bits as in CPython, errors included; the texts of addresses, networks, ranges and blocks. Printing an address and reading it again (Peer.py 311-312) is the identity. | Invariant of the loop: no network inside the range lies across the next address; so each network of the result is a largest one, which gives also that no list is shorter (an injection). `Reads`, `Piece`, `BlockText` say what texts mean, without the code; they are shown unambiguous, and the printed texts are shown to have the right meaning. |
| C65 | The loops over configurations and pairs, the gates before a query (no peers, format), the names of configurations, the comparison with the expected file character by character, the counters of a scheme, the switches of the command line, the exit status. Queries are a parameter that maps configurations to a number, a text and a flag, or raises; for the command line those on two configurations are the queries of `QueryModel`. | `docShape` and `pairsOf` say which runs are documented; `Outcome`, `RunOf`, `Fails` what a run gives; `OutLines`, `FileLines`, `Stripped` what lines are; `Mismatches` counts for a scheme. Induction over the runs, the lines and the queries. The theorems on single switches compose the exit status with C31-C33. |
| C66 | The search for conflicting Calico policies, the order of the checks (conflict, vacuity, then per layer empty and redundant policies and rules), the search for the policy or rule that explains a redundancy, exceptions as `none`. The peer sets of rules are given by a function `ep`; texts are constructors. | `Conflict`, `Issue.Real`, `PolicyWhy.Right` and `Other` say what the answer claims, in terms of who is selected, what connections match and what configurations allow. `C66_order_partial` relates the conflict check to what it is for: without a conflict the order of reading does not matter. The redundancy checks are those of C34, vacuity that of C35, containment that of C32. |
| C67 | The choice between specific and general lists, reading of namespaces, endpoints and services (by the model of C61), the verdict whether a topology was found and what is taken from the global configuration, policies, the labels that selectors and Gateways record as missing, the choice of files that supply them, the second reading, and the sequence of configurations of a scheme. Files are a function from paths to documents; what policies need is given by a function `need`, their content is a parameter. | `Agree` says that two contents of the files have the same resources where these are looked for; `C67_override` compares the runs on both. What is found in the files is what C61 says is read from `Lists.steps`. `Asks`, `Nobody`, `Misses` say when something is missing, in terms of labels. `C67_independent` is by a relation between states that differ in the registry of pods only. |
| C68 | The tracker of explanations as it is filled while endpoints and policies are read, by the layer of Kubernetes and Calico policies and by the connectivity query, and what it shows for one node, two nodes and all. A policy is its name, place, selected peers and the peers of its allowed cubes; the map is a relation between names. | Invariant of the entry of a node over policies read (`Says`), then over the defaults of the two directions and the peers of the map; lists are determined by being increasing and by their members (`Shows`). |
| C69 | `DotGraph`: nodes and edges as they are added, the set of labels, short names, legend, and what is drawn for each node and edge. Labels are texts. | `Used` and `Stands` speak of what was added and what is seen. Invariant of the graph over steps (`Built`); short names are told apart by cases on what is added to them; sorted lists are determined by their members. |
| C70 | The list of lines of a hyper-cube set: its cubes, the attributes without peers (and without the protocols of the part), the pieces of the peer sets, names; the two parts; header, sorting. `Named` gives pieces and names of peers. | `Tells` says how a line is read, with `Rep.Means` of C40. Cubes cover the set (`cubes_val`), the printed attributes of a cube denote it (`cube_means` by C40); the parts by histories of the operations. C70_program_partial: for the connection sets of the program (`connA`) and its peers (`real`), with pieces and names from C22 and C64. C70_k8s_partial: from the texts of Kubernetes policies to the lines, by C45_good_partial, `connMap_spec` (C36's map) and C45_config_partial. |

## 4. Trusted base

* The kernel of Lean 4.33.0.
* Axioms: every theorem depends on a subset of `propext`, `Classical.choice`, `Quot.sound`.  There are no other axioms, no
  `sorry`, no `native_decide` and no `bv_decide`.  Counterexamples and examples are checked by `decide` or `decide +kernel`,
  that is by the kernel.
* The reading of the Python source by which the definitions were written.  Nothing was run.
* External libraries are not modelled: greenery (regular expressions and DFAs for paths and hosts), ipaddress,
  networkx, PyYAML.  DFA-valued dimensions are any lawful value algebra; languages are shown to be one.

## 5. Hypotheses of the theorems and why they are there

* `Ok`/`Strong`/`Wide` sets: subtraction from an *empty* connection set whose active dimensions were reduced gives a
  wrong result (C11_sub_from_empty_wrong).  `Ok` sets denote a set of connections.  `Strong` sets may also be on the left of a
  subtraction.  The theorems on policies and queries prove that the code keeps these invariants.  Where it does not, the theorem is
  `_partial` and its condition (no Pass rules, or something is allowed, or IPv6 is excluded) says so.
* `Config.Good`: the configuration was built by adding its policies, rules select captured peers, peers are known.
* `FwNet.Laws`: laws of the operations used for firewall rules, proved for hyper-cube sets (`hcFwNet_laws`).
* `Container.Spaces`, `Container.DisjointSets` (C47): endpoints outside of namespaces are the global ones, which is how the code
  tells them apart; network sets do not overlap (C23_overlapping_sets_wrong).
* `Item.Tame` (C49): `TameText` (C45), or `PolicyLegal`, `PolicyTame` and no `Pass` rules (C24). Kubernetes policies only in clusters of pods
  and DNS entries (`Cluster`). With host endpoints only filters without explicitly allowed connections (C30). Satisfied by the examples
  of `PropsCalicoConfigEx`.
* `IstioCluster` (C50): pods and DNS entries only (`Cluster`), the namespaces of pods are known, and names of namespaces and service
  accounts have letters, digits, `_` and `-` only. `Tame`: the texts are legal and not those of section 6 that the code misreads. Which
  texts are misread depends on the source of the request (excluded namespaces alone are read rightly for pods). `DfaLib`: assumed of the
  library of automata: the automaton of an alternative of sequences has its words, subtraction is exact. Languages satisfy it
  (`Ex.dfaLib`). As in the code, traffic between pods carries their identities, requests come from pods and addresses, and rules with
  operations or conditions match TCP only.
* `AuthText.Tame` (C51): the conditions of C50 for every policy. Connections to DNS entries only if some pod has no ALLOW policy; otherwise
  the code forgets the default (C26_dns_default_lost). Satisfied by the example of `PropsIstioConfigEx`.
* `SvcsTame`, `IngressText.Tame`, `HostTame` (C53): legal services and resources that the code reads as Kubernetes does; each condition names the
  finding that makes it necessary. `IngressLib` is assumed of the library of automata: the words of `[\w]*` before an expression, of an
  optional suffix, and that all texts of letters are words. Languages satisfy it (`Ex.ingressLib`). Two assumptions of the code are part
  of the specification: the pods of services with `ingress-nginx` in their names are the controller, and the controller sends nothing
  but what Ingress resources route (`GatewaySays`). Satisfied by the examples of `PropsIngressEx` and `PropsIngressConfigEx`.
* `CalCluster` (C48): all pods and host endpoints of the configuration are registered, there is room for one more peer, the named
  ports are legal.  `RuleTame`, `PolicyTame`: the constructs of section 6 that the code reads wrongly do not occur.  Two readings of
  Calico's documentation are fixed by the specification: `nets` and `notNets` speak of addresses outside of the cluster (the
  addresses of pods are not known), and `notSelector` excludes endpoints of the policy's namespace only, unless there is a
  namespace selector.
* `C37_rules`: no connection from an address goes to an address or a DNS entry (so for every connection map and
  semantic difference, whose last step removes such connections), and there are addresses and workloads at all (address
  ranges are peers of every analysis; without workloads there is no connection).
* C50, C51, C53 and C54 are about sets of connections made by `hcOfCube`, which differs from the code for the value `{""}` of hosts
  or paths (`notHosts: ["*"]`): there the code gives the empty set (C56, section 6).
* C57: `SidecarText.Tame`: the hosts and listeners of section 6 that the code reads wrongly do not occur. `Named`: names of services and
  namespaces have no dots (Kubernetes forbids them), DNS entries have legal names without wildcards. As the code, the specification takes
  a workload with egress listeners to reach nothing else, and DNS entries to be visible in all namespaces. Satisfied by `PropsSidecarEx`.
* C58: as C54 and C57. `sc` and `ts` in its statement are the policies and the texts of the Sidecars; `ts ≠ []` matters because one Sidecar is
  enough for the Istio layer to exist. Satisfied by `PropsSidecarConfigEx`.
* C59: `GatewayText.Tame`, `VsText.Tame`: legal texts, without what section 6 lists. `ReqsTame`: a request for which the texts are read as
  Istio does: no two routes of a kind fit, wildcards stand for one label, prefixes end with an element. `RxOk` is what is assumed of `re.match`
  for methods. Different resources of a kind have different names. As the code, the specification ignores ports of servers. Satisfied by
  `PropsGatewayEx`: an ingress gateway, a service, and the egress flow to an external site.
* C60: as C58 and C59. `hdng`: as for C51, if the destination is a DNS entry some pod is behind none of the services that routes of the mesh lead
  to (otherwise the code takes the layer to cover all pods). `Readable`: names without the characters that the names of policies are
  made with, which Kubernetes forbids. Satisfied by `PropsGatewayConfigEx`.
* C61: `Tame` lists what the code reads wrongly (section 6) and what Kubernetes forbids (names with the characters that forms are made with, several
  namespaces of one name). `texts` and `chars`: the texts of different blocks of addresses differ, have a slash and no parenthesis; proved for the
  text of the code (`C64_tame`), `TameDocs` is what remains.
  Satisfied by `PropsTopologyEx`, with any number of replicas in place of three.
* C62: as C61, and `Uniform`: pods that are alike have the same ports and service accounts; true of pods of one workload. `early`: configurations read
  earlier in the same run have the same ports for the same pods (C43). `FullAccounts`: for Istio, all pods have service accounts (all but those from Calico's
  WorkloadEndpoints). `Full` can be met for all documents (`C62_full`).
* C63: `Agree`: labels of an endpoint and its profiles do not contradict each other (section 6). Names of profiles differ, as do the keys of a map of
  labels. `C63_accepts` is for profiles without rules. `fits` is the acceptance of documents other than profiles, a parameter. Services select pods
  before labels of profiles are set, so that C63 is not composed with C60.
* C64: `Built`, as for C21: the blocks that the operations on blocks give. No other.
* C65: `Steady`: whether a query raises does not depend on `fullExplanation`. `C65_compare_partial`: the file has no carriage return; `C65_compare_crlf` is for
  files with both at each end of a line. `hq` of the schemes: at most one sub-query per query (section 6). `C65_*_status_partial`: as in C31-C33, output txt, both with
  peers. `Bits` holds for the queries of the model (`queriesWorld_bits`).
* C66: `hep`, `Tied`: `ep` gives the peer sets of the rules of the policy it is applied to, as in C35. `C66_order_partial`: no sidecars, Ingress or Gateway resources, no Pass
  rules, no Kubernetes policy that clashes with a Calico policy of order 1000. `C66_real_partial`, `C66_passes_partial`: hypotheses of C34 and C35. `C66_policy_reason_partial`: the
  policy is no sidecar, no host endpoints. `C66_answers_partial`: full names are unique, not both Kubernetes and Calico policies.
* C67: `Fair`: listing a set gives its elements. `C67_own_pods_partial`: a namespace is known or there is a list of pods. `AllPods`, `Uniq` in the theorems on missing labels of Kubernetes
  policies: no network sets, no two equal endpoints. `C67_joined_partial`, `C67_found_partial`: hypotheses of C61 (`Tame`) for the second reading. `hG` in the theorems on global topologies is met by `C67_kept`.
* C68: `Fair`: no policy is called `Default-Policy`, policies allow something only in directions they affect, the nodes were read and are among all peers. `Even`: a policy allows the same peers
  to all the peers it selects (not so with named ports: `C68_named_port_wrong`). `C68_reason_partial` asks that the map is that of the policies, as C27 and C49 prove for Kubernetes policies; for policies
  of Calico what a policy allows is taken without the policies before it. Nodes are endpoints but not host endpoints; blocks of addresses: `C68_block_wrong`,
  and `C68_block_partial` for what is shown. Places: no other thing has the name; `Filed` says that of all that is read.
* C69: `Usual`: labels are `All` or have pieces `key:value` where the protocol has no `_` and does not end in a small letter, and ports are numbers. (IPv6-Frag, manet and some others end in
  small letters; without this the code can give one text to two labels, see the example in `PropsLegendEx`.) `OneKind`: the caller gives no two nodes of different kinds the same name.
* C31_k8s_partial, C32_k8s_partial, C33_k8s_partial: one cluster with a pod and two lists of texts (`Cluster`, `TameText` as C45); `Talks` says which connections queries are about.
* C34_k8s_partial, C34_k8s_query_partial, C35_k8s_partial, C35_disjoint_k8s_partial, C42_k8s_partial, C45_captured_partial: one cluster with a pod, texts as for C31_k8s_partial; `EachSame` compares policy by policy; `Rest` is the list without the texts of a name; redundancy of rules is not covered.
* C70: `Covers`: the pieces of a legal peer set have exactly its peers. `Distinct` (only C70_exact_partial and C70_list_partial): pieces with the same name are the same peers. `Apart`: the ends are not
  in one piece, nor in pieces with one name. `HcStrong`: as for every result of the analysis (C36). In C70_program_partial
  these are met by the peers of the program if `GoodNames`: registered peers have distinct names, which cannot be read as addresses (`not_addresses`: so are names with `[`), and `Registered`: the domain
  of the query has registered peers only (`registered_of_query`: so it is); `TwoEnds`: the ends differ and are not both addresses.
  C70_k8s_partial asks of texts and clusters what C45_config_partial does (`Cluster`, `TameText`), and that one end is a pod; the source is no DNS entry, and ends are not of IPv6 if these are left out (the
  program does not list such connections).
* C55: the operations of `greenery` are those of the languages, and automata of one language are equal (assumption (2) of the class).
  `Unmixed`: every call works on objects of its dimension and gives one; this is assumption (5) of the class, which the code does not
  keep (section 6). `TextsInside`: regular expressions denote words of their dimension, and one without a star not all of them.

## 6. Findings: claims the code does not meet

Each is proved by a theorem with a concrete witness.  The claim is then proved under the condition that excludes it (theorem with
suffix `_partial`).

| Theorem | What goes wrong |
|---|---|
| C11_sub_from_empty_wrong, C10_or_after_unguarded_sub_wrong | Empty set with reduced dimensions minus something is not empty. |
| C24_pass_spurious_nonempty | The same through Calico rules with action Pass. |
| C15_connprops_eq_incomplete | Two `ConnectivityProperties` with the same connections compare different. |
| C31_incomplete_wrong, C31_empty_wrong | Equivalence query says different for configurations that allow the same (IPv6 shown). |
| C31_order_wrong | Equal-order policies added in another order: the shortcut says equivalent, although the connections differ. |
| C32_two_way_code_wrong | Code of the two-way containment query on the command line. |
| C22_spurious_last, C22_domain_error, C22_contains_block_incomplete | Indices beyond the registered peers give the last peer; the domain without peers fails; membership of a block that is covered by several blocks. |
| C23_exists_restricted, C23_ns_empty_value_wrong, C23_overlapping_sets_wrong | Exists on pod labels looks at the policy's namespace only; an empty label value selects namespaces without the label; overlapping network sets. |
| C19_union_forgets_exclusions | Union of port sets drops excluded named ports of the right operand. |
| C26_dns_default_lost(_config) | Connections to DNS entries that are allowed by default get lost. |
| C28_insertion_order_wrong | Deny before Allow depends on the order of insertion of gateway policies. |
| C30_filter_hep_wrong | Filtering by layers with host endpoints. |
| C33_uncaptured_wrong | Semantic diff misses connections of peers that no policy captures. |
| C34_same_name_wrong, C34_sidecar_wrong, C34_duplicate_wrong, C34_tie_wrong, C34_policies_lost_wrong | Policies reported redundant although removing one changes the connections. |
| C34_deny_sidecar_wrong | A redundant rule of a DENY authorization policy is not reported when the configuration has a sidecar: the policy without the rule is examined behind the sidecar, after the ALLOW policies. |
| C35_twin_wrong | Disjointness skips a pair of equal policies of different kinds. |
| C36_deployment_part_wrong | A deployment subset also selects deployments whose names contain the given one. |
| C37_self_example | Firewall rules allow a pod to connect to itself although it may not (documented in the code). |
| C38_conjunction_wrong | The printed expression of a conjunction of label keys selects more pods than the group. |
| C39_group_label_lost_wrong, C39_clique_names_clash_wrong, C39_multi_range_raises | The drawing loses a connection, merges two cliques, or fails. |
| C42_same_name_raises | Strong equivalence fails with an exception for policies of the same name. |
| C43_second_configuration_wrong | Named ports are resolved through the pod object registered first under its name; the registry is shared by all configurations, so a second configuration with other ports is analysed with those of the first. |
| C43_several_protocols | If a cube has several protocols, a named port is added for all of them (no parser makes such a cube). |
| C44_empty_egress_wrong, C45_empty_egress_wrong | `egress: []` (or null) without `policyTypes` isolates the pods on egress; Kubernetes adds `Egress` to the types only if there is an egress rule. |
| C44_types_order_rejected | `policyTypes: [Egress, Ingress]` is rejected: the list is compared with `['Ingress', 'Egress']` as a list. |
| C47_trailing_text_wrong | The regular expressions do not look at the end of a selector: `app == 'web' & tier == 'x'`, `has(a) | has(b)` and `app == 'web' junk` are read as their first part, without an error. |
| C47_glued_operator_wrong, C47_rejected | `appcontains 'w'` is read as `app contains 'w'`; double quotes, blanks inside `has()`, empty values and empty lists are rejected. |
| C48_icmp_zero_wrong, C48_icmp_code_zero_wrong, C48_not_icmp_zero_wrong | ICMP type 0 (echo reply) and code 0 count as absent: `icmp: {type: 0}` matches every type, `notICMP: {type: 0}` excludes all ICMP. |
| C48_icmp_excluded_wrong | `notICMP` has no effect if it covers all of `icmp`; the rule should then match nothing. |
| C48_both_protocols_wrong | `protocol: TCP` with `notProtocol: UDP`: a warning says `notProtocol` has no effect, but the rule gets no connections at all. |
| C48_quoted_port_wrong | `ports: ["80"]` is read as the name of a port. |
| C48_source_port_name_wrong | Names of source ports are dropped, so a rule with only such ports matches nothing. |
| C48_name_minus_number_wrong | `notPorts: [80]` does not exclude port 80 from `ports: [http]`. |
| C48_nets_with_selector_wrong | Networks together with a selector match nothing, not even the network sets both choose. |
| C48_network_set_selected_wrong | Policies capture the addresses of network sets their selector chooses; Calico applies policies to endpoints only. |
| C48_empty_egress_wrong, C48_empty_ingress_wrong | Without `types`, the presence of an empty list of rules decides the governed directions; Calico looks at whether there are rules. |
| C48_other_direction_rejected | Rules of a direction that `types` does not name are an error; Calico ignores them. |
| C49_tie_by_position | Of two Calico policies of one order the first of the configuration decides, so the answer depends on the order of documents and files; Calico goes by the names of the policies. |
| C50_dotted_account_wrong | A principal is read up to the first character that is no letter, digit, `_` or `-`: the principal of the service account `my.web` (dots are legal) selects the pods of the account `my`. |
| C50_negative_misses_outside | `notNamespaces` and `notPrincipals` alone match no address outside of the cluster. A DENY rule for all but a namespace does not deny external traffic. |
| C50_networks_and_namespaces_wrong | Networks with excluded namespaces match nothing. |
| C50_not_ip_blocks_rejected | `notIpBlocks` without `ipBlocks` is an exception: the code iterates over the intervals of a block and makes blocks of them. |
| C50_empty_list_wrong | An empty list matches nothing if another list of the source is not empty; for Istio it is no list. |
| C50_host_endpoints_rejected | Principals are an exception (no service account) if the cluster has host endpoints or network sets. |
| C50_no_spec_no_effect | A policy without a spec has no effect; for Istio it is an ALLOW policy without rules, which allows nothing. |
| C50_path_presence_wrong | `paths: ["*"]` (and `*suffix`) have words that are no paths; the value is not the whole domain although it has all paths, so policies with it and without it are told apart. |
| C52_missing_port_wrong | A pod without one of the named ports of a service is no target of the service at all, also not for its other ports. |
| C53_no_host_default_wrong | With a rule without a host, the default backend is allowed for all requests: the hosts that are left are none, and no hosts are read as no condition. |
| C53_root_default_wrong | Likewise with a rule whose paths match everything, as the prefix `/` does. |
| C53_two_rules_wrong | With two rules for a host, the default backend also gets the requests of each rule, because they do not match the other one. |
| C53_wildcard_wrong, C53_empty_label_wrong | `*` in a host is read as `[\w]*`: it misses labels with `-`, and matches the empty label. |
| C53_no_http_rejected, C53_default_only_rejected | A rule without `http` and an Ingress resource with a default backend and no rules, both legal, are exceptions. |
| C53_dot_wrong | Dots in paths are not escaped: `/a.b` also matches `/axb`. |
| C53_same_prefix_wrong | The prefixes `/foo` and `/foo/` in a rule eliminate each other. |
| C53_no_pods_wrong, C53_missing_service_wrong | Requests for a service without pods go to the default backend; a path with a missing service is ignored, so a shorter one or the default decides. |
| C53_resource_wrong | A path with a resource backend and no default backend allows the controller all connections, to all destinations. |
| C53_controller_namespace_wrong | All services of namespaces with `ingress-nginx` in their names are taken for the controller. |
| C55_mixed_dimensions_wrong, C55_host_lost | The complement of a set of strings is remembered in the object, and objects are shared by their text. After `notPaths: ["*x"]`, `notHosts: ["*x"]` (of any policy) gives the *paths* not ending with `x`, so no host matches, and vice versa. |
| C56_empty_word_wrong, C56_absent_host_lost | The "empty value" of hosts and paths is the regular expression `""`, whose language is not empty. `notHosts: ["*"]` (requests without host) gives the empty set. |
| C57_domain_wrong | Of the name of a service only the first label is read: `*/db.shop.svc.cluster.local` exposes the services `db` of all namespaces. |
| C57_wildcard_dns_wrong, C57_wildcard_namespace_wrong | `*/*.svc.cluster.local` exposes all DNS entries too; in `*/*.shop.svc.cluster.local` the namespace is ignored. |
| C57_short_wildcard_wrong | `*/*.cluster.local` exposes no services. |
| C57_entry_wildcard_wrong, C57_one_label_rejected | A DNS entry `*.wiki.co.uk` is not exposed by `*/*.co.uk`; `*/*.com` is an error. |
| C57_no_listeners_wrong | An empty list of egress listeners denies the workloads all connections; for Istio it is as no list. |
| C57_bare_wildcard_accepted | The host `*/*.` is accepted. |
| C59_only_ignored_crashes | If all Gateways are ignored (not a standard one, or without pods) and there are no VirtualServices, the warning about it raises an exception. |
| C59_host_namespace_wrong | Hosts of servers with a namespace (`ns/*.com`) are ignored; a server with only such hosts is an error. |
| C59_wildcard_wrong | The wildcard of a host stands for one label only: `*.com` is not for `a.b.com`. |
| C59_unknown_method_wrong | A route for a method that the analyzer does not know (`PURGE`) is taken as one for all methods. |
| C59_match_gateways_wrong | The gateways of all conditions of a route are joined: each condition counts for all of them. |
| C59_no_uri_wrong, C59_product_wrong | Of the conditions of a route, those without path are ignored if others have one; and every path goes with every method. |
| C59_prefix_wrong | Prefixes of paths end at the end of an element: `/a` is not a prefix of `/ab`. |
| C59_order_wrong | All routes that fit are followed, not the first one. |
| C59_mesh_host_wrong | Routes of the mesh to the egress gateway are for all hosts, not those of the virtual service. |
| C59_mixed_rejected, C59_egress_internal_rejected, C59_no_hosts_crashes, C59_sni_slash_crashes | Exceptions: a route to a service and to an external name; a route of an egress gateway to a service; a VirtualService without hosts; TLS names with a slash. |
| C60_numbers_wrong | Routes are numbered from one for each kind, and the policies are named after the numbers, not the kinds: a VirtualService with an HTTP and a TCP route for one gateway is rejected ("A policy named … already exists"). The same happens with two destinations at egress gateways in one route (`VsText.Distinct`). |
| C61_namespace_after_wrong | A Namespace whose document comes after one of a pod of it, in one list of resources: the pod stays in a namespace without labels. |
| C61_pod_list_wrong | Items of a PodList have no `kind`, and their service account is lost. |
| C61_workload_wrong | The owner of a pod that is a ReplicaSet with a hexadecimal name without dash (`cafe`) gives the workload `caf`: two workloads are taken for one. |
| C61_same_name_wrong | A Deployment and a StatefulSet of one name: the pods of the second are lost, with their labels. |
| C61_daemonset_wrong, C61_cronjob_wrong | A DaemonSet has one pod, and `parallelism` of a CronJob is not read: connections between their pods are not seen. |
| C61_ports_lost_wrong | Endpoints of one form with different ports: the ports of the third are lost. |
| C61_same_nets_wrong | Of two network sets with the same addresses, the labels of the second are lost. |
| C61_twice_wrong | A pod in two documents counts twice, and another pod of its workload is dropped. |
| C63_own_wrong | A label of a profile does not give way to that of the endpoint: `role == a` and `role == b` both hold. |
| C63_order_wrong | Of two profiles with a label, the first in the input counts, not the first of the endpoint. |
| C63_rules_wrong | Rules of profiles have no effect; there is no error. |
| C63_old_ingress_wrong | An Ingress of the version `extensions/v1beta1` has no effect, without an error; for other old versions there is one. |
| C64_shorter_wrong | The "shorter notation" of a block may be three times as long: `1::-2:ffff:ffff:ffff:ffff:ffff:ffff:ffff` for `1::/16,2::/16`. A single address is printed as a network. |
| C65_lonely_wrong | A query on pairs with fewer than two configurations ends with an exception (the result is not a triple), instead of a result. |
| C65_two_way_runs_wrong | `twoWayContainment` compares all pairs; documented is the first configuration with each of the others. |
| C65_sub_queries_wrong | Of several sub-queries of a query only the last one counts; documented is the sum. |
| C65_html_wrong | If a query other than the first one has the format html, no query runs and the exit status is 0. |
| C65_empty_expected_wrong | An empty file of expected output accepts any output of one line. |
| C65_blank_wrong | Blanks at the ends of lines are removed from the expected lines only: an output with such blanks does not match itself. |
| C65_wrap_wrong, C65_seven_wrong | 256 mismatches give the exit status 0; seven give the one of an exception. |
| C65_global_name_wrong | A configuration of a scheme named `global` is stored under the name of a file. |
| C65_global_policy_wrong | A Calico policy without namespace cannot be chosen by its kind and name. |
| C66_pass_wrong | Calico policies of the same order, one with a Pass rule and one with a Deny rule for the same connection: no conflict is reported, but the order of reading decides. |
| C66_mixed_wrong | A Kubernetes policy and a Calico policy of order 1000 that disagree: no conflict is reported, but the order of reading decides. |
| C66_crash_wrong | The sanity query raises an exception when a redundant rule of a Kubernetes policy is contained in a rule of a Calico policy that is not of lower order. |
| C66_name_wrong | The sanity query raises an exception about a redundant policy whose full name another policy shares. |
| C66_reason_missing_wrong | The search for a reason ends at the first policy of lower order, so an unrelated policy hides that a rule is contained in an earlier rule of its own policy. |
| C66_sidecar_text_wrong | Redundant sidecars are said to have no effective rules. |
| C66_note_wrong | A Calico deny rule contained in a rule of a Kubernetes policy is reported without the note that the actions contradict. |
| C67_own_namespaces_wrong | A configuration that names its own namespaces and uses the global pods: the pods stay in the global namespaces, with their labels. |
| C67_services_lost_wrong | In the same situation the services of the global configuration are lost. |
| C67_host_endpoints_wrong | A configuration whose resources are host endpoints only (no namespace) gets the global endpoints instead. |
| C67_pod_list_wrong | A configuration that names its own pods and no namespaces does not get the labels of the global namespaces, although docs/SchemeFileFormat.md says that the global list is the default. |
| C67_livesim_global_wrong | Resources are found missing and files to add are chosen, but with a global topology and a list of policies only nothing is added. |
| C67_livesim_extra_wrong | Pods for DNS are added although there are some, because a selector asks first for another label, which nobody has. |
| C68_same_name_wrong | Explanations keep policies by names without namespaces: the file and line shown for a policy are those of a policy of the same name in another namespace. |
| C68_named_port_wrong | A policy is given as a reason for a connection although it allows nothing between the two (it allows the port by a name that only another pod has). |
| C68_block_wrong | A pod that is connected to a block of addresses: no policy is listed, since blocks are kept by texts that differ between policies and the map; the pod itself is shown under `Policy Configurations`. |
| C68_all_blocks_wrong | By deployments, the explanation of everything has entries for one block of addresses only, whatever the number of blocks (blocks built from indices have an empty name). |
| C68_configs_wrong | Explanations are not reset between configurations: a policy of one configuration is given as a reason in another, which has no policies. |
| C68_scheme_wrong | A scheme passes the output format where the mode of endpoints is expected: its explanations are never by deployments, although the graph is. |
| C68_dropped_wrong | A pod that was dropped because two like it are kept has no explanation. |
| C69_crash_wrong | A graph is not drawn at all (`IndexError`) if a label lists a path, other than the first, that contains `protocols` or `dst_ports`. |
| C69_all_but_wrong | The arrow for everything except TCP on port 80 says `tcp80`; only its tooltip and the legend say "All but". |
| C70_shared_name_wrong | With output endpoints `deployments`, a line of the plain list tells of all replicas of a workload what may hold of one of them only. |
| C04_inverted_range_not_canonical | Inverted ranges are accepted by the constructor. |

Seen while reading, not modelled: `filter_conns_by_peer_types` changes its argument; `rules: null` of an Istio policy is an exception; the root namespace of Istio is fixed as `istio-config`, while Istio's default is
`istio-system`; characters of Python's `\w` outside of ASCII pass the check of hosts and paths; projection on an inactive dimension of an empty set gives the whole domain; `reorder_by_switching_src_dst_peers` of the
set of all connections raises IndexError (it is not called on that set); the names TTP and IPTM share protocol number 84. A destination without port
of a service with several ports, or of an external name, gets no ports at all in a VirtualService; the text of an exact path of a VirtualService is read as a regular expression.

## 7. Not modelled

* Reading of YAML and JSON, syntax checks, warnings, parsing of the arguments of the command line, live cluster access, logging.
* The texts of regular expressions of hosts and paths, and their printing (`regex_expr`).
* Explanations (`ExplTracker`) with layers of Istio or gateways, and the XML around them; they do not influence the sets.
* Output formats other than those named: csv, md, json and yaml only print the data that are modelled.
* Parsers other than the parts named in section 2.  Of namespaces and endpoints: live clusters, lists of Calico resources.  Of Calico's: `ipVersion`, which the code accepts
  and does not read.
