{"id": "C01", "title": "Union of interval sets is exact", "statement": "For canonical interval sets A and B a number is a member of A|B (and of A after A|=B) iff it is a member of A or of B; adding one interval adds exactly its numbers.", "quantifier": "all canonical interval sets (any number of intervals, any integers), all non-empty intervals", "why_tests_cant": "The claim ranges over an unbounded family of sets; a unit test fixes finitely many literals. The two binary searches and the four splice cases of add_interval interact only for particular relative positions.", "anchors": ["nca/CoreDS/CanonicalIntervalSet.py:CanonicalIntervalSet.__or__", "nca/CoreDS/CanonicalIntervalSet.py:CanonicalIntervalSet.__ior__", "nca/CoreDS/CanonicalIntervalSet.py:CanonicalIntervalSet.add_interval", "nca/CoreDS/CanonicalIntervalSet.py:find_interval_left", "nca/CoreDS/CanonicalIntervalSet.py:find_interval_right"]}
{"id": "C02", "title": "Intersection of interval sets is exact", "statement": "A number is a member of A&B iff it is a member of A and of B.", "quantifier": "all canonical interval sets", "why_tests_cant": "The claim ranges over an unbounded family of sets; a unit test fixes finitely many literals.", "anchors": ["nca/CoreDS/CanonicalIntervalSet.py:CanonicalIntervalSet.__and__", "nca/CoreDS/CanonicalIntervalSet.py:CanonicalIntervalSet.__iand__", "nca/CoreDS/CanonicalIntervalSet.py:Interval.__and__"]}
{"id": "C03", "title": "Difference of interval sets is exact", "statement": "A number is a member of A-B iff it is a member of A and not of B; add_hole removes exactly the numbers of the hole.", "quantifier": "all canonical interval sets and holes", "why_tests_cant": "The claim ranges over an unbounded family of sets; a unit test fixes finitely many literals.", "anchors": ["nca/CoreDS/CanonicalIntervalSet.py:CanonicalIntervalSet.__sub__", "nca/CoreDS/CanonicalIntervalSet.py:CanonicalIntervalSet.__isub__", "nca/CoreDS/CanonicalIntervalSet.py:CanonicalIntervalSet.add_hole", "nca/CoreDS/CanonicalIntervalSet.py:Interval.__sub__"]}
{"id": "C04", "title": "Interval sets stay canonical", "statement": "After any sequence of |=, &=, -=, add_interval, add_hole starting from the empty set (with non-empty intervals), the stored intervals are non-empty, sorted, and no two overlap or touch.", "quantifier": "all finite operation histories", "why_tests_cant": "Histories are unbounded; a single non-canonical intermediate result silently breaks equality much later.", "anchors": ["nca/CoreDS/CanonicalIntervalSet.py:CanonicalIntervalSet"]}
{"id": "C05", "title": "Interval-set equality is extensional", "statement": "Two interval sets reached by any operation histories compare equal iff they contain the same numbers.", "quantifier": "all pairs of reachable interval sets", "why_tests_cant": "The claim ranges over an unbounded family of sets; a unit test fixes finitely many literals. Equality is structural, so it is right only if the representation is unique.", "anchors": ["nca/CoreDS/CanonicalIntervalSet.py:CanonicalIntervalSet.__eq__"]}
{"id": "C06", "title": "Interval-set containment and membership are exact", "statement": "A.contained_in(B) answers true iff every member of A is a member of B, and x in A iff x lies in one of the intervals.", "quantifier": "all pairs of canonical interval sets, all integers", "why_tests_cant": "The claim ranges over an unbounded family of sets; a unit test fixes finitely many literals. The answer goes through a binary search which must be right for every length.", "anchors": ["nca/CoreDS/CanonicalIntervalSet.py:CanonicalIntervalSet.contained_in", "nca/CoreDS/CanonicalIntervalSet.py:CanonicalIntervalSet.__contains__"]}
{"id": "C07", "title": "Interval-set overlap test is exact", "statement": "A.overlaps(B) is true iff A and B have a common member, iff A & B is non-empty (truthy).", "quantifier": "all pairs of canonical interval sets", "why_tests_cant": "The claim ranges over an unbounded family of sets; a unit test fixes finitely many literals.", "anchors": ["nca/CoreDS/CanonicalIntervalSet.py:CanonicalIntervalSet.overlaps", "nca/CoreDS/CanonicalIntervalSet.py:CanonicalIntervalSet.__bool__"]}
{"id": "C08", "title": "A cube becomes exactly its product set", "statement": "A hyper-cube set built from a cube contains exactly the tuples whose every coordinate lies in the value set given for that dimension; dimensions left out (or given their entire domain) are unconstrained; a cube with an empty dimension gives the empty set.", "quantifier": "all cubes, all dimension counts, all dimension domains", "why_tests_cant": "Unbounded number of dimensions and values.", "anchors": ["nca/CoreDS/CanonicalHyperCubeSet.py:create_from_cube", "nca/CoreDS/CanonicalHyperCubeSet.py:_create_from_cube_aux", "nca/CoreDS/CanonicalHyperCubeSet.py:_reduce_cube", "nca/CoreDS/CanonicalHyperCubeSet.py:add_cube"]}
{"id": "C09", "title": "Hyper-cube intersection is exact", "statement": "A tuple is in A&B iff it is in A and in B, whatever dimensions are active in A and B.", "quantifier": "all well-formed hyper-cube sets over any ordered list of dimensions", "why_tests_cant": "Correctness depends on interplay of active-dimension alignment, layer splitting, merging and reduction over trees of any depth and width.", "anchors": ["nca/CoreDS/CanonicalHyperCubeSet.py:__iand__", "nca/CoreDS/CanonicalHyperCubeSet.py:_and_aux", "nca/CoreDS/CanonicalHyperCubeSet.py:_prepare_common_active_dimensions"]}
{"id": "C10", "title": "Hyper-cube union is exact", "statement": "A tuple is in A|B iff it is in A or in B.", "quantifier": "all well-formed hyper-cube sets", "why_tests_cant": "Same as C09; the three-way split in or_aux must be exact at every tree node.", "anchors": ["nca/CoreDS/CanonicalHyperCubeSet.py:__ior__", "nca/CoreDS/CanonicalHyperCubeSet.py:or_aux"]}
{"id": "C11", "title": "Hyper-cube difference is exact", "statement": "A tuple is in A-B iff it is in A and not in B.", "quantifier": "all well-formed hyper-cube sets", "why_tests_cant": "Same as C09.", "anchors": ["nca/CoreDS/CanonicalHyperCubeSet.py:__isub__", "nca/CoreDS/CanonicalHyperCubeSet.py:sub_aux", "nca/CoreDS/CanonicalHyperCubeSet.py:add_hole"]}
{"id": "C12", "title": "Hyper-cube membership test is exact", "statement": "item in S answers true iff the item belongs to the set denoted by S, for items of full length.", "quantifier": "all well-formed sets, all items", "why_tests_cant": "Unbounded sets; recursion through layers.", "anchors": ["nca/CoreDS/CanonicalHyperCubeSet.py:__contains__"]}
{"id": "C13", "title": "Hyper-cube containment is exact", "statement": "A.contained_in(B) answers true iff every tuple of A is a tuple of B, including when different dimensions are active.", "quantifier": "all pairs of well-formed hyper-cube sets", "why_tests_cant": "The recursive algorithm covers a layer of A by several layers of B; exactness for all widths cannot be sampled.", "anchors": ["nca/CoreDS/CanonicalHyperCubeSet.py:contained_in", "nca/CoreDS/CanonicalHyperCubeSet.py:_contained_in_aux", "nca/CoreDS/CanonicalHyperCubeSet.py:_is_sub_elem_entire_sub_space"]}
{"id": "C14", "title": "Emptiness test is exact", "statement": "bool(S) is false iff S contains no tuple, for every S obtained by any history of set operations; every truthy S has a first item and that item belongs to S.", "quantifier": "all operation histories", "why_tests_cant": "A set that denotes nothing but tests as non-empty flips query verdicts; histories are unbounded.", "anchors": ["nca/CoreDS/CanonicalHyperCubeSet.py:__bool__", "nca/CoreDS/CanonicalHyperCubeSet.py:is_empty", "nca/CoreDS/CanonicalHyperCubeSet.py:get_first_item", "nca/CoreDS/CanonicalHyperCubeSet.py:__isub__"]}
{"id": "C15", "title": "Hyper-cube equality is extensional", "statement": "Two hyper-cube sets reached by any histories compare equal iff they contain the same tuples.", "quantifier": "all pairs of reachable sets", "why_tests_cant": "Equality is structural; only a uniqueness-of-representation argument settles it.", "anchors": ["nca/CoreDS/CanonicalHyperCubeSet.py:__eq__", "nca/CoreDS/CanonicalHyperCubeSet.py:_apply_layer_elements_union", "nca/CoreDS/CanonicalHyperCubeSet.py:_reduce_active_dimensions", "nca/CoreDS/ConnectivityProperties.py:__eq__"]}
{"id": "C16", "title": "Iterating a set enumerates a disjoint cube cover", "statement": "The cubes enumerated for a set are pairwise disjoint and their union is the set.", "quantifier": "all well-formed hyper-cube sets", "why_tests_cant": "Every output rule is generated from this enumeration; it must be right for every tree.", "anchors": ["nca/CoreDS/CanonicalHyperCubeSet.py:__iter__", "nca/CoreDS/CanonicalHyperCubeSet.py:_get_cubes_list_from_layers", "nca/CoreDS/CanonicalHyperCubeSet.py:get_cubes_list"]}
{"id": "C17", "title": "Activating or de-activating dimensions does not change the set", "statement": "Aligning the active dimensions of two sets, and dropping dimensions that turned out unconstrained, never changes membership.", "quantifier": "all sets and all supersets of their active dimensions", "why_tests_cant": "Unbounded trees.", "anchors": ["nca/CoreDS/CanonicalHyperCubeSet.py:_set_active_dimensions", "nca/CoreDS/CanonicalHyperCubeSet.py:build_new_active_dimensions", "nca/CoreDS/CanonicalHyperCubeSet.py:_remove_some_active_dimensions", "nca/CoreDS/CanonicalHyperCubeSet.py:_reduce_active_dimensions"]}
{"id": "C18", "title": "Connection-set algebra laws", "statement": "For any connection sets: union and intersection are commutative, associative, idempotent, distribute over each other; A-B is disjoint from B; (A-B)|(A&B) has exactly the members of A; A contained in B iff A-B has no member.", "quantifier": "all triples of connection sets", "why_tests_cant": "Laws quantify over all sets.", "anchors": ["nca/CoreDS/CanonicalHyperCubeSet.py", "nca/CoreDS/ConnectivityProperties.py"]}
{"id": "C19", "title": "Port sets behave as sets", "statement": "PortSet add_port/add_port_range/union/difference hold exactly the ports added and not removed, including named ports and excluded named ports, and PortSet(True) is the full range 1-65535.", "quantifier": "all sequences of port-set operations", "why_tests_cant": "Unbounded histories of numeric and named ports.", "anchors": ["nca/CoreDS/PortSet.py:PortSet"]}
{"id": "C20", "title": "Method and protocol sets and their complements", "statement": "MethodSet and ProtocolSet membership is exact under add/remove/complement, names and numbers are interchangeable, and the printed complement form denotes the same set.", "quantifier": "all method / protocol sets", "why_tests_cant": "All subsets of 256 protocols cannot be enumerated.", "anchors": ["nca/CoreDS/MethodSet.py:MethodSet", "nca/CoreDS/ProtocolSet.py:ProtocolSet", "nca/CoreDS/ProtocolNameResolver.py"]}
{"id": "C21", "title": "IP addresses map faithfully to integer intervals", "statement": "Set operations on IpBlocks agree with the same operations on the integer interval sets they are mapped to inside connections; IPv4 and IPv6 addresses never merge or collide, and \u00b11 at the ends of an address family never escapes it.", "quantifier": "all IPv4/IPv6 block pairs", "why_tests_cant": "2^32 + 2^128 addresses.", "anchors": ["nca/CoreDS/Peer.py:IPNetworkAddress", "nca/CoreDS/Peer.py:IpBlock", "nca/CoreDS/Peer.py:BasePeerSet"]}
{"id": "C22", "title": "Peer sets survive the round trip through connections", "statement": "Converting a peer set to indices and back yields the same set of pods and IP addresses.", "quantifier": "all peer sets over all registered topologies", "why_tests_cant": "Any number of registered peers and address ranges.", "anchors": ["nca/CoreDS/Peer.py:BasePeerSet.get_peer_interval_of", "nca/CoreDS/Peer.py:BasePeerSet.get_peer_set_by_indices"]}
{"id": "C23", "title": "Label selectors have Kubernetes semantics", "statement": "A label selector selects a pod iff the pod satisfies every matchLabels and every matchExpressions requirement; In/NotIn and Exists/DoesNotExist are complementary; the empty selector selects every pod; selectors are monotone (adding a requirement never adds pods).", "quantifier": "all selectors, all pods and labels", "why_tests_cant": "Unbounded label alphabets, selectors and clusters.", "anchors": ["nca/Parsers/K8sPolicyYamlParser.py:parse_label_selector", "nca/Parsers/K8sPolicyYamlParser.py:parse_label_selector_requirement", "nca/NetworkConfig/PeerContainer.py:get_peers_with_label", "nca/NetworkConfig/PeerContainer.py:get_peers_with_key", "nca/NetworkConfig/PeerContainer.py:get_namespace_pods_with_label"]}
{"id": "C24", "title": "Calico rules: first match wins", "statement": "For a Calico policy, a connection is allowed / denied / passed exactly when the first rule that matches it allows / denies / passes it; log rules never decide; the three result sets are disjoint.", "quantifier": "all rule lists and connections", "why_tests_cant": "Rule lists of any length and arbitrary overlap.", "anchors": ["nca/Resources/PolicyResources/CalicoNetworkPolicy.py", "nca/Resources/PolicyResources/NetworkPolicy.py"]}
{"id": "C25", "title": "Policies of a layer: first deciding policy wins", "statement": "In a layer, a connection is allowed (denied) iff the first policy, in precedence order, that captures and decides it allows (denies) it; a pass lets profiles / later stage decide.", "quantifier": "all policy lists and connections", "why_tests_cant": "Arbitrary number and overlap of policies.", "anchors": ["nca/NetworkConfig/NetworkLayer.py:collect_policies_conns"]}
{"id": "C26", "title": "Uncaptured pods default to allow", "statement": "A pod captured by no policy of a layer in a direction has all its connections of that direction allowed by that layer; a captured pod has exactly what its policies allow.", "quantifier": "all configurations", "why_tests_cant": "Unbounded configurations.", "anchors": ["nca/NetworkConfig/NetworkLayer.py:K8sCalicoNetworkLayer", "nca/NetworkConfig/NetworkLayer.py:IstioNetworkLayer"]}
{"id": "C27", "title": "Kubernetes policies are additive and order independent", "statement": "Among Kubernetes NetworkPolicies a captured connection is allowed iff some policy capturing the pod allows it; the order of policies is irrelevant, and adding a policy that captures no new pod never removes an allowed connection.", "quantifier": "all K8s policy lists and permutations", "why_tests_cant": "n! orders of arbitrarily many policies.", "anchors": ["nca/Resources/PolicyResources/K8sNetworkPolicy.py", "nca/NetworkConfig/NetworkLayer.py"]}
{"id": "C28", "title": "Istio: deny overrides allow", "statement": "In the Istio layer a connection matched by any DENY authorization policy is denied even if some ALLOW policy matches it, whatever the order in which policies and sidecars were given.", "quantifier": "all insertion orders of authorization policies and sidecars", "why_tests_cant": "Insertion orders are unbounded permutations.", "anchors": ["nca/Resources/PolicyResources/IstioNetworkPolicy.py:__lt__", "nca/NetworkConfig/NetworkLayer.py:NetworkLayersContainer.add_policy", "nca/NetworkConfig/NetworkLayer.py:IstioNetworkLayer"]}
{"id": "C29", "title": "A connection must be allowed by every layer and both directions", "statement": "The configuration allows a connection iff every present layer allows it on egress of the source and ingress of the destination (with the documented treatment of gateways and host endpoints).", "quantifier": "all layer containers and connections", "why_tests_cant": "Unbounded configurations.", "anchors": ["nca/NetworkConfig/NetworkConfig.py:allowed_connections", "nca/NetworkConfig/NetworkLayer.py:allowed_connections"]}
{"id": "C30", "title": "The result filter only selects", "statement": "Asking for only the allowed connections, only all-allowed connections or everything returns the same connection sets for the requested fields.", "quantifier": "all configurations and filters", "why_tests_cant": "Needs every configuration, including ones with host endpoints and several layers.", "anchors": ["nca/NetworkConfig/NetworkConfig.py:allowed_connections", "nca/Resources/PolicyResources/NetworkPolicy.py:PolicyConnectionsFilter"]}
{"id": "C31", "title": "Equivalence query is sound and complete", "statement": "The equivalence query answers equivalent iff the two configurations allow the same connections, and it agrees with two-way containment.", "quantifier": "all pairs of configurations on a topology", "why_tests_cant": "Pairs of configurations are unbounded.", "anchors": ["nca/NetworkConfig/NetworkConfigQuery.py:EquivalenceQuery", "nca/NetworkConfig/NetworkConfigQuery.py:TwoWayContainmentQuery"]}
{"id": "C32", "title": "Containment, permits, forbids, interferes, intersects answer the set question", "statement": "Each query answers per its definition: containment iff no connection allowed by the first and not by the second; intersects iff a common connection exists; forbids iff none; interferes iff the first extends the second; two-way containment code encodes the four cases.", "quantifier": "all pairs of configurations", "why_tests_cant": "Unbounded.", "anchors": ["nca/NetworkConfig/NetworkConfigQuery.py:ContainmentQuery", "nca/NetworkConfig/NetworkConfigQuery.py:TwoWayContainmentQuery", "nca/NetworkConfig/NetworkConfigQuery.py:PermitsQuery", "nca/NetworkConfig/NetworkConfigQuery.py:ForbidsQuery", "nca/NetworkConfig/NetworkConfigQuery.py:InterferesQuery", "nca/NetworkConfig/NetworkConfigQuery.py:IntersectsQuery"]}
{"id": "C33", "title": "Semantic diff is sound, complete and categorised once", "statement": "Every connection reported added (removed) is allowed only after (before); a changed connection touching an added, removed or captured peer is reported in exactly one category; equal configurations give an empty diff.", "quantifier": "all pairs of configurations and peers", "why_tests_cant": "Unbounded.", "anchors": ["nca/NetworkConfig/NetworkConfigQuery.py:SemanticDiffQuery.compute_diff"]}
{"id": "C34", "title": "Redundancy verdicts are safe to act on one at a time", "statement": "A policy reported redundant can be deleted without changing the allowed connections; a rule reported redundant can be deleted without changing the connectivity.", "quantifier": "all configurations", "why_tests_cant": "Unbounded.", "anchors": ["nca/NetworkConfig/NetworkConfigQuery.py:RedundancyQuery", "nca/NetworkConfig/NetworkConfig.py:clone_without_policy"]}
{"id": "C35", "title": "Vacuity, emptiness and disjointness verdicts", "statement": "Vacuity holds iff the policies change nothing; emptiness flags exactly policies capturing no pod and rules selecting nobody; disjointness flags exactly the pairs capturing a common pod.", "quantifier": "all configurations", "why_tests_cant": "Unbounded.", "anchors": ["nca/NetworkConfig/NetworkConfigQuery.py:VacuityQuery", "nca/NetworkConfig/NetworkConfigQuery.py:EmptinessQuery", "nca/NetworkConfig/NetworkConfigQuery.py:DisjointnessQuery"]}
{"id": "C36", "title": "The connectivity map shows exactly the allowed connections of the chosen peers", "statement": "A connection is in the connectivity map if and only if the configuration allows it, it is relevant (not between addresses, not from a DNS entry, not with an excluded IPv6 address) and one of its ends is in the chosen subset of peers; when the map is split, the two reported parts are disjoint, their union is the whole map, and the TCP part has only TCP.", "quantifier": "all configurations, subset specifications and connections", "why_tests_cant": "Unbounded configurations and peers.", "anchors": ["nca/NetworkConfig/NetworkConfigQuery.py:ConnectivityMapQuery.compute_connectivity_output", "nca/NetworkConfig/NetworkConfigQuery.py:ConnectivityMapQuery.is_in_subset", "nca/NetworkConfig/NetworkConfigQuery.py:ConnectivityMapQuery.convert_props_to_split_by_tcp"]}
{"id": "C37", "title": "Reported firewall rules are equivalent to the connectivity", "statement": "A connection of a relevant protocol is in the computed connectivity if and only if one of the reported minimal firewall rules allows it, reading namespaces, label groups, listed pods and IP blocks of the rule as the endpoints they stand for; only connections of a workload to itself may be allowed by the rules in addition, and only in clusters small enough that the grouping ignores them.", "quantifier": "all connection sets and cluster topologies", "why_tests_cant": "Grouping by namespaces, labels and IP blocks ranges over all topologies.", "anchors": ["nca/FWRules/MinimizeFWRules.py:get_minimized_firewall_rules_from_props", "nca/FWRules/MinimizeFWRules.py:minimize_firewall_rules", "nca/FWRules/MinimizeCsFWRules.py:MinimizeCsFwRules"]}
{"id": "C38", "title": "Label grouping of pods is exact", "statement": "The groups of pods by labels and the listed pods that describe a set of pods in firewall rules hold together exactly these pods (and nothing but pods that have the connection anyway), no pod of the set is in two groups, and the printed label expression of a group, read in its namespace, selects exactly the pods of the group.", "quantifier": "all pod sets and label maps", "why_tests_cant": "Unbounded label maps.", "anchors": ["nca/FWRules/MinimizeCsFWRules.py:_get_pods_grouping_by_labels", "nca/FWRules/FWRule.py:LabelExpr"]}
{"id": "C39", "title": "The connectivity graph shows exactly the connections", "statement": "In the output formats dot, jpg and html every peer is in exactly one box of the drawing, and for two peers the drawing says that there is traffic c from the box of the one to the box of the other (by an arrow, a two-headed arrow, a biclique node, a clique, or the self edge of a shared box) if and only if the connectivity has traffic c from the one to the other; whenever there is a connectivity map the drawing is made.", "quantifier": "all connectivity maps, peers, orders of iteration and cliques found", "why_tests_cant": "Unbounded graphs; grouping, cliques and bicliques interact, and the greedy choice depends on set iteration order.", "anchors": ["nca/FWRules/ConnectivityGraph.py:get_connectivity_dot_format_str", "nca/FWRules/ConnectivityGraph.py:_get_equals_groups", "nca/FWRules/ConnectivityGraph.py:_creates_bicliqued_graph", "nca/FWRules/ConnectivityGraph.py:_creates_cliqued_graph", "nca/FWRules/ConnectivityGraph.py:reformat_graph", "nca/FWRules/DotGraph.py:DotGraph"]}
{"id": "C40", "title": "Printed connections denote the computed set", "statement": "The simplified representation of a connection set, either direct or as all-but, and its text form denote exactly this set; different sets of ports never have the same text.", "quantifier": "all connection sets", "why_tests_cant": "Unbounded.", "anchors": ["nca/CoreDS/ConnectivityProperties.py:get_simplified_connections_representation", "nca/CoreDS/ConnectivityProperties.py:__str__", "nca/CoreDS/ConnectivityProperties.py:get_cube_dict", "nca/CoreDS/CanonicalIntervalSet.py:get_interval_set_list_numbers_and_ranges"]}
{"id": "C41", "title": "Captured-pods verdicts", "statement": "The all-captured query answers yes exactly if the configuration has policies other than Ingress/Gateway ones and every workload is selected by a Kubernetes/Calico policy on ingress and on egress (if there are such policies) and by an Istio policy on ingress (if there are such policies); the reported workloads are exactly those not selected.", "quantifier": "all configurations", "why_tests_cant": "Unbounded sets of policies, pods and selectors.", "anchors": ["nca/NetworkConfig/NetworkConfigQuery.py:AllCapturedQuery", "nca/NetworkConfig/NetworkConfig.py:get_affected_pods"]}
{"id": "C42", "title": "Strong equivalence compares policy by policy", "statement": "Two configurations over one topology are reported strongly equivalent exactly if they have policies of the same names and types, each of which on its own allows the same connections in both.", "quantifier": "all pairs of configurations", "why_tests_cant": "Quantifies over all connections and all policies.", "anchors": ["nca/NetworkConfig/NetworkConfigQuery.py:StrongEquivalenceQuery", "nca/NetworkConfig/NetworkConfig.py:clone_with_just_one_policy"]}
{"id": "C43", "title": "Named ports", "statement": "A rule with named ports allows exactly the connections to the port numbers it gives and to those ports to which the destination pod itself gives one of the names, for the protocol of the rule; a name that the destination pod does not define allows nothing, and excluded names remove exactly the ports the destination pod gives to them.", "quantifier": "all policies, pods and connections", "why_tests_cant": "The same name stands for another port in each pod; the sets of pods and ports are unbounded.", "anchors": ["nca/CoreDS/ConnectivityProperties.py:make_conn_props", "nca/CoreDS/ConnectivityProperties.py:_resolve_named_ports", "nca/CoreDS/ConnectivityProperties.py:make_conn_props_from_dict", "nca/CoreDS/Peer.py:get_named_ports", "nca/CoreDS/Peer.py:add_named_port"]}
{"id": "C44", "title": "A Kubernetes network policy means what Kubernetes says", "statement": "A parsed NetworkPolicy applies to exactly the pods of its namespace that its podSelector selects, governs ingress and egress as the policyTypes (or their defaults) say, and each of its rules covers exactly the connections whose other end is in an ipBlock (and in none of its exceptions) or is selected by the selectors of one of its peers, and whose protocol and port are those of one of its ports (a number, a range, or a name the destination pod gives to the port); a rule without peers covers all peers, one without ports all ports. The parser accepts exactly the well-formed policies.", "quantifier": "all policies, clusters and connections", "why_tests_cant": "Policies, selectors and clusters are unbounded, and the meaning of a rule is a set of connections.", "anchors": ["nca/Parsers/K8sPolicyYamlParser.py:parse_policy", "nca/Parsers/K8sPolicyYamlParser.py:parse_ingress_egress_rule", "nca/Parsers/K8sPolicyYamlParser.py:parse_port", "nca/Parsers/K8sPolicyYamlParser.py:parse_peer"]}
{"id": "C45", "title": "From policy texts to connections", "statement": "In a configuration of Kubernetes NetworkPolicies a connection with a pod at one end is allowed if and only if, for its source on egress and for its destination on ingress, either no policy governs the pod in this direction or one that does has a rule covering the connection, all read from the texts of the policies.", "quantifier": "all lists of policies, clusters and connections", "why_tests_cant": "Composes parsing, peer sets, connection sets, capture and layers over unbounded inputs.", "anchors": ["nca/Parsers/K8sPolicyYamlParser.py:parse_policy", "nca/Resources/PolicyResources/K8sNetworkPolicy.py:allowed_connections", "nca/NetworkConfig/NetworkConfig.py:allowed_connections"]}
{"id": "C46", "title": "Queries restore what they change", "statement": "Each query works on a domain of exactly the addresses and the peers of its own configurations; the connections of parsed Kubernetes rules keep their meaning in this domain; after any sequence of queries the domain, the connections of all rules and the policies are as they were, and every query answers as it would if it were the only one, even if configurations share policies or rules.", "quantifier": "all sequences of queries over all sets of configurations, sharing patterns and orders", "why_tests_cant": "The state is shared between configurations and queries; sequences are unbounded.", "anchors": ["nca/NetworkConfig/NetworkConfigQuery.py:execute_and_compute_output_in_required_format", "nca/Resources/PolicyResources/NetworkPolicy.py:reorganize_props_by_new_domains", "nca/Resources/PolicyResources/NetworkPolicy.py:restore_props", "nca/Resources/PolicyResources/K8sNetworkPolicy.py:sync_props", "nca/CoreDS/DimensionsManager.py:DimensionsManager"]}
{"id": "C47", "title": "Calico selectors choose what they say", "statement": "A selector expression of a Calico policy, with any white space and brackets, selects exactly the endpoints (of the policy namespace, where one applies) whose labels satisfy it, with negation binding stronger than conjunction and conjunction stronger than disjunction; a namespace selector selects exactly the endpoints whose namespace satisfies it and the global endpoints its global() parts speak of; a text that is not a selector is reported as an error.", "quantifier": "all selector texts, clusters and endpoints", "why_tests_cant": "Texts, nesting and label maps are unbounded.", "anchors": ["nca/Parsers/CalicoPolicyYamlParser.py:_parse_label_selector", "nca/Parsers/CalicoPolicyYamlParser.py:_recursive_parse_label_selector", "nca/Parsers/CalicoPolicyYamlParser.py:_strip_selector", "nca/Parsers/CalicoPolicyYamlParser.py:_split_selector", "nca/Parsers/CalicoPolicyYamlParser.py:_parse_selector_expr", "nca/NetworkConfig/PeerContainer.py:get_peers_with_label"]}
{"id": "C48", "title": "Calico policies mean what they say", "statement": "A Calico network policy applies to exactly the pods and host endpoints its selectors choose, governs exactly the directions its types (or, without types, its rules) ask for, and its rules have, in their order, the written action and cover exactly the connections whose ends, protocol, ports and ICMP type and code the rule asks for: entity rules by networks, selectors and namespace selectors, ports by numbers, ranges and the names each destination gives them, with the excluded ones left out.", "quantifier": "all Calico policies, clusters, named ports of pods and connections", "why_tests_cant": "Policies, clusters and label maps are unbounded, and fields interact.", "anchors": ["nca/Parsers/CalicoPolicyYamlParser.py:parse_policy", "nca/Parsers/CalicoPolicyYamlParser.py:_parse_xgress_rule", "nca/Parsers/CalicoPolicyYamlParser.py:_parse_entity_rule", "nca/Parsers/CalicoPolicyYamlParser.py:_get_rule_peers", "nca/Parsers/CalicoPolicyYamlParser.py:_get_rule_ports", "nca/Parsers/CalicoPolicyYamlParser.py:_parse_icmp", "nca/Parsers/CalicoPolicyYamlParser.py:_set_affects_ingress_egress", "nca/Parsers/CalicoPolicyYamlParser.py:_get_selected_peers"]}
{"id": "C49", "title": "From Kubernetes and Calico policy texts to connections", "statement": "In a configuration of Kubernetes and Calico policies a connection with a pod or host endpoint at one end is allowed if and only if at each end that is not an address, for the source on egress and the destination on ingress, the first policy in precedence that applies to the end and has a rule for the connection allows it (Calico policies by their first matching rule, Log rules apart), or no policy applies to the end and it is not a host endpoint; all read from the texts of the policies. Precedence is the order of Calico policies, 1000 for Kubernetes policies, no order last, and among equals the place in the configuration.", "quantifier": "all lists of policies, clusters and connections", "why_tests_cant": "Composes parsing, selectors, peer sets, connection sets, precedence and capture over unbounded inputs.", "anchors": ["nca/Parsers/CalicoPolicyYamlParser.py:parse_policy", "nca/Parsers/K8sPolicyYamlParser.py:parse_policy", "nca/Resources/PolicyResources/CalicoNetworkPolicy.py:allowed_connections", "nca/NetworkConfig/NetworkLayer.py:K8sCalicoNetworkLayer", "nca/NetworkConfig/NetworkConfig.py:allowed_connections", "nca/NetworkConfig/NetworkConfigQuery.py:execute_and_compute_output_in_required_format"]}
{"id": "C50", "title": "Istio authorization policies mean what they say", "statement": "An Istio AuthorizationPolicy has the written action, applies to exactly the pods of its namespace (of all namespaces if it is in the root namespace) that its selector chooses, and each of its rules matches exactly the requests with a matching source (namespaces, principals, address blocks and the excluded ones), a matching operation (ports, methods, hosts, paths and the excluded ones, by exact, prefix, suffix and presence matching) and all conditions fulfilled.", "quantifier": "all authorization policies, clusters, service accounts and requests", "why_tests_cant": "Texts, clusters, hosts and paths are unbounded.", "anchors": ["nca/Parsers/IstioPolicyYamlParser.py:parse_policy", "nca/Parsers/IstioPolicyYamlParser.py:parse_ingress_rule", "nca/Parsers/IstioPolicyYamlParser.py:parse_source", "nca/Parsers/IstioPolicyYamlParser.py:parse_operation", "nca/Parsers/IstioPolicyYamlParser.py:parse_condition", "nca/Parsers/IstioGenericYamlParser.py:update_policy_peers"]}
{"id": "C51", "title": "Connections of Kubernetes, Calico and Istio configurations from the policy texts", "statement": "In a configuration with Kubernetes and Calico policies and Istio AuthorizationPolicies, a connection between two endpoints (at least one a pod) is reported as allowed exactly if the Kubernetes and Calico policies allow it at both ends and, if there is an AuthorizationPolicy, it does not come from a DNS entry, is TCP if it goes to a DNS entry and, if it is TCP, no DENY policy that applies to the destination has a matching rule, and either no ALLOW policy applies to the destination or one that applies has a matching rule. The configuration is accepted exactly if its Kubernetes policies are legal and no two policies of a kind have the same name.", "quantifier": "all lists of policy texts in any order, clusters of pods and DNS entries, and connections", "why_tests_cant": "The set of configurations and of connections is unbounded; it composes parsing, policy ordering and layers.", "anchors": ["nca/NetworkConfig/PoliciesFinder.py:parse_policies_in_parse_queue", "nca/NetworkConfig/NetworkConfig.py:allowed_connections", "nca/NetworkConfig/NetworkLayer.py:IstioNetworkLayer", "nca/Parsers/IstioPolicyYamlParser.py:parse_policy", "nca/Resources/PolicyResources/IstioNetworkPolicy.py:allowed_connections"]}
{"id": "C52", "title": "Pods behind a Kubernetes service", "statement": "The target pods of a Kubernetes service are exactly the pods of its namespace that have all the labels of its selector.", "quantifier": "all services, clusters and pods", "why_tests_cant": "Selectors, labels and clusters are unbounded.", "anchors": ["nca/Parsers/K8sServiceYamlParser.py:parse_service", "nca/NetworkConfig/PeerContainer.py:_set_services_and_populate_target_pods", "nca/NetworkConfig/PeerContainer.py:get_pods_with_service_name_containing_given_string"]}
{"id": "C53", "title": "Ingress resources allow exactly what the controller forwards", "statement": "The policy made of a Kubernetes Ingress resource selects the pods of the Ingress controller and allows exactly the TCP requests that the controller forwards: those whose host matches a rule (exactly or by wildcard) and whose path is decided (longest match, exact before prefix) by a path of that rule, to the pods and target port of its backend, and all requests that match no rule to the default backend.", "quantifier": "all Ingress resources, services, clusters and requests", "why_tests_cant": "Hosts, paths and the lists of rules and paths are unbounded.", "anchors": ["nca/Parsers/IngressPolicyYamlParser.py:parse_policy", "nca/Parsers/IngressPolicyYamlParser.py:parse_rule", "nca/Parsers/IngressPolicyYamlParser.py:parse_ingress_path", "nca/Parsers/IngressPolicyYamlParser.py:parse_backend", "nca/Parsers/IngressPolicyYamlParser.py:segregate_longest_paths_and_make_dfa", "nca/Parsers/GenericGatewayYamlParser.py:parse_host_value"]}
{"id": "C54", "title": "Connections of configurations with Ingress resources from the texts", "statement": "In a configuration with Ingress resources, a connection (with a pod at one end) is reported as allowed exactly if the policies alone allow it and it does not come from a pod of the Ingress controller, or some Ingress resource routes it to its destination. The order of the documents does not matter. The configuration is accepted exactly if its Kubernetes policies are legal and no two documents of a kind have the same name.", "quantifier": "all lists of policies, Ingress resources and services, clusters of pods and DNS entries, and connections", "why_tests_cant": "It composes the parsers of five kinds of resources, the layers and the query; the set of configurations is unbounded.", "anchors": ["nca/NetworkConfig/PoliciesFinder.py:parse_policies_in_parse_queue", "nca/NetworkConfig/NetworkConfig.py:allowed_connections", "nca/NetworkConfig/NetworkLayer.py:K8sGatewayLayer", "nca/Parsers/IngressPolicyYamlParser.py:parse_policy", "nca/Resources/PolicyResources/GatewayPolicy.py:allowed_connections"]}
{"id": "C55", "title": "Sets of strings behave as sets, whatever was computed before", "statement": "Union, intersection and difference of sets of strings (hosts, paths) accept exactly the words of the union, intersection and difference, and equality, emptiness, containment and the test for the whole dimension answer as the languages say, after any sequence of operations and whatever the memo tables kept or dropped.", "quantifier": "all sequences of operations, memo evictions and words", "why_tests_cant": "Objects carry marks and references that later operations change, and operations are memoized: the result depends on the whole history of the process.", "anchors": ["nca/CoreDS/MinDFA.py:__or__", "nca/CoreDS/MinDFA.py:__and__", "nca/CoreDS/MinDFA.py:__sub__", "nca/CoreDS/MinDFA.py:contained_in", "nca/CoreDS/MinDFA.py:is_dfa_wll_words", "nca/CoreDS/MinDFA.py:dfa_from_regex", "nca/CoreDS/MinDFA.py:dfa_all_words", "nca/CoreDS/DimensionsManager.py:_get_dfa_path_domain"]}
{"id": "C56", "title": "A set made of one value per dimension has exactly the connections of the rectangle", "statement": "The connection set made of one set of values per dimension (peers, ports, protocols, methods, hosts, paths, ICMP) has exactly the connections with every coordinate in the given values.", "quantifier": "all values of all dimensions and all connections", "why_tests_cant": "Values of hosts and paths are languages; the set of rectangles is unbounded.", "anchors": ["nca/CoreDS/ConnectivityProperties.py:_make_conn_props_no_named_ports_resolution", "nca/CoreDS/ConnectivityCube.py:is_empty", "nca/CoreDS/ConnectivityCube.py:get_ordered_cube_and_active_dims", "nca/CoreDS/DimensionsManager.py:get_empty_dimension_by_name"]}
{"id": "C57", "title": "A workload with a Sidecar reaches exactly what its hosts expose", "statement": "For Sidecar resources: each workload has at most one (a selector comes before the namespace, the namespace before the root namespace); two that could be the one of a workload are an error. A workload whose Sidecar has egress listeners reaches over TCP exactly the pods of the services and the DNS entries that a host of a listener names, and addresses unless the mode is REGISTRY_ONLY.", "quantifier": "all clusters, services, lists of Sidecar resources, hosts and requests", "why_tests_cant": "Hosts combine namespaces, wildcards, names of services and of external hosts; which resource applies depends on all the others.", "anchors": ["nca/Parsers/IstioSidecarYamlParser.py:parse_policy", "nca/Parsers/IstioSidecarYamlParser.py:get_istio_sidecars", "nca/Resources/PolicyResources/IstioSidecar.py:create_opt_egress_props", "nca/NetworkConfig/PeerContainer.py:get_dns_entry_peers_matching_host_name"]}
{"id": "C58", "title": "Connections of configurations with Sidecar resources from the texts", "statement": "In a configuration with Sidecar resources (and Kubernetes and Calico policies, AuthorizationPolicies and Ingress resources), a connection with a pod at one end is reported as allowed exactly if the other resources allow it and, for TCP, the Sidecar of its source, if that has egress listeners, exposes the destination; with Istio resources present, only workloads and addresses send, and only TCP goes to DNS entries. The configuration is accepted exactly if the documents are legal, no two Sidecars claim the same workload, and no two documents of a kind have the same name.", "quantifier": "all configurations and connections", "why_tests_cant": "Quantifies over all configurations of all five kinds of resources and all connections.", "anchors": ["nca/NetworkConfig/PoliciesFinder.py:parse_policies_in_parse_queue", "nca/Parsers/IstioSidecarYamlParser.py:get_istio_sidecars", "nca/Resources/PolicyResources/IstioSidecar.py:create_opt_egress_props,allowed_connections", "nca/NetworkConfig/NetworkLayer.py:IstioNetworkLayer", "nca/NetworkConfig/NetworkConfig.py:allowed_connections"]}
{"id": "C59", "title": "What Istio gateways let through", "statement": "From Gateway and VirtualService resources the analyzer makes policies such that: an ingress gateway in use (with pods, and bound to a virtual service over a common host) sends over TCP exactly the requests that the routes of its virtual services tell it to, to the pods or DNS entries of their destinations and the right target ports; if routes of the mesh lead to the egress gateway and an egress gateway is in use, the same holds for that, its pods get from the mesh exactly what those routes send, and other pods of the mesh are denied the external destinations of the egress gateway. Policies that allow come before those that deny. There are no such policies exactly if no standard gateway has pods or there are no virtual services.", "quantifier": "all clusters, services, Gateway and VirtualService resources, and requests", "why_tests_cant": "Hosts of gateways, virtual services and TLS names intersect; routes combine conditions, gateways of three levels, services, ports and DNS entries; whether the egress flow counts depends on all resources together.", "anchors": ["nca/Parsers/IstioGatewayYamlParser.py:parse_gateway", "nca/Parsers/IstioVirtualServiceYamlParser.py:parse_virtual_service", "nca/Parsers/IstioGatewayPolicyGenerator.py:create_istio_gateway_policies", "nca/Parsers/GenericGatewayYamlParser.py:parse_host_value", "nca/Resources/OtherResources/Gateway.py:add_server", "nca/Resources/OtherResources/VirtualService.py:add_destination"]}
{"id": "C60", "title": "Connections of configurations with Istio gateways from the texts", "statement": "In a configuration with Gateway and VirtualService resources (and Kubernetes and Calico policies, AuthorizationPolicies, Ingress and Sidecar resources), a connection with a pod at one end is reported as allowed exactly if the other resources allow it and, if some standard gateway has pods and there are virtual services, its source is a workload or an address, only TCP goes to DNS entries, and the routes of the virtual services let it through: from a gateway in use exactly what they forward, to the pods of the egress gateway exactly what routes of the mesh send there, and to external destinations of the egress gateway only through it. The configuration is accepted exactly if the documents are legal and no two resources or routes give policies of the same name.", "quantifier": "all configurations and connections", "why_tests_cant": "Quantifies over all configurations of all kinds of resources and all connections.", "anchors": ["nca/NetworkConfig/PoliciesFinder.py:parse_policies_in_parse_queue", "nca/Parsers/IstioGatewayPolicyGenerator.py:create_istio_gateway_policies", "nca/Resources/PolicyResources/GatewayPolicy.py:allowed_connections", "nca/NetworkConfig/NetworkConfig.py:allowed_connections,append_policy"]}
{"id": "C61", "title": "The cluster is read from the manifests", "statement": "From manifests of namespaces, pods, workloads (Deployment, ReplicaSet, StatefulSet, DaemonSet, Job, CronJob, ReplicationController), Calico workload endpoints, host endpoints and network sets, and Istio service entries, the analyzer makes peer objects such that: every object is an endpoint of the cluster, with its name, addresses, labels, named ports, service account, profiles, namespace and the labels of the namespace; no two objects are equal; every endpoint has an object that stands for it, that is, one of the same kind, namespace, labels, profiles and workload; and any two endpoints have two different objects that stand for them. Manifests with illegal hosts of service entries are rejected; all others are accepted up to the capacity of the registry.", "quantifier": "all lists of manifests, orders of documents, lists of namespaces apart from endpoints or together with them, and peers registered earlier", "why_tests_cant": "Any number of documents, replicas and labels; which pods are dropped depends on collisions of a textual key that joins names, profiles and labels.", "anchors": ["nca/NetworkConfig/TopologyObjectsFinder.py", "nca/CoreDS/Peer.py:canonical_form", "nca/CoreDS/Peer.py:workload_name", "nca/Parsers/IstioServiceEntryYamlParser.py", "nca/NetworkConfig/ResourcesHandler.py:_parse_resources_path"]}
{"id": "C62", "title": "Two pods of a workload are enough", "statement": "The analyzer keeps at most two pods of each workload (with the same labels and profiles). Nevertheless, for any two different endpoints or addresses of the cluster with all of its pods there are two different endpoints or addresses of the analyzed cluster such that the connections reported as allowed between these are exactly those that the resources of the configuration (Kubernetes and Calico policies, AuthorizationPolicies, Ingress, Sidecar, Gateway and VirtualService resources) allow between the two in the full cluster.", "quantifier": "all clusters, numbers of replicas, configurations and connections", "why_tests_cant": "Unbounded numbers of replicas and policies; the claim compares the analysis with a cluster that the analyzer never builds.", "anchors": ["nca/NetworkConfig/TopologyObjectsFinder.py:_add_peer", "nca/NetworkConfig/TopologyObjectsFinder.py:_add_pod_from_workload_yaml", "nca/NetworkConfig/NetworkConfig.py:allowed_connections_optimized"]}
{"id": "C63", "title": "Documents and the labels of profiles", "statement": "A document is read as a policy of some kind exactly if its kind and apiVersion are supported for it (items of lists count as documents). All such documents, and no others, become policies, in their order, and all are parsed with the same labels of endpoints: beside its own labels each endpoint has those that its Calico profiles give it, wherever in the input the profiles are, and independent of earlier configurations. Hence the connections computed with Kubernetes and Calico policies are those that the policies allow in the cluster whose endpoints have these labels.", "quantifier": "all lists of documents and nested lists, profiles, endpoints, and connections", "why_tests_cant": "Depends on the order of unboundedly many documents and on labels left over by earlier configurations.", "anchors": ["nca/NetworkConfig/PoliciesFinder.py:parse_yaml_code_for_policy", "nca/NetworkConfig/PoliciesFinder.py:parse_policies_in_parse_queue", "nca/Resources/PolicyResources/NetworkPolicy.py:get_policy_type_from_dict", "nca/Parsers/CalicoPolicyYamlParser.py:_apply_extra_labels", "nca/NetworkConfig/PeerContainer.py:get_profile_pods", "nca/NetworkConfig/PeerContainer.py:clear_pods_extra_labels", "nca/Parsers/GenericYamlParser.py:parse_generic_yaml_objects_fields"]}
{"id": "C64", "title": "The texts of blocks of addresses", "statement": "For every block of addresses the list of its CIDRs can be computed; the CIDRs have no host bits, are disjoint and in increasing order, have exactly the addresses of the block, no shorter list has, and adding them to an empty block gives the block back. The printed texts of addresses and blocks (as ranges, as CIDRs, or whichever of them the report chooses) mean exactly these addresses in the notation of RFC 4291, and a text has one meaning only; so different blocks have different texts, and names that are made of them can be used in C61-C63.", "quantifier": "all blocks that the operations on blocks can build, in both families, and all texts", "why_tests_cant": "There are 2^128 addresses and unboundedly many blocks; the number of CIDRs of a range depends on all bits of its ends.", "anchors": ["nca/CoreDS/Peer.py:IpBlock.get_cidr_list", "nca/CoreDS/Peer.py:IpBlock.get_cidr_list_str", "nca/CoreDS/Peer.py:IpBlock.get_ip_range_or_cidr_str", "nca/CoreDS/CanonicalIntervalSet.py:__repr__", "nca/FWRules/ConnectivityGraph.py:_get_peer_details", "nca/FWRules/FWRule.py:get_elem_list_obj"]}
{"id": "C65", "title": "What the exit status says", "statement": "A query runs once for each configuration, for each pair of configurations, or for each configuration with the first, as its kind says, and its result is the sum over the runs; names of configurations in a scheme file mean a configuration, one of its policies or the policies of one kind. A result is compared with the expected output line by line up to the kind of line ends and blanks at the ends of lines. The exit status of a scheme file is the number of queries whose result, number of runs not executed or output is not the expected one, plus one for each configuration whose warnings or errors are not the expected ones. The exit status of a switch of the command line says whether the query was executed, whether the output is the expected one, and the answer: 0 exactly if the policies allow the same connections (equiv), if the base policies interfere (interferes), if everything the policies explicitly allow is allowed by the base policies (permits), if nothing of it is (forbids), if no connections changed (semantic_diff); it is 7 exactly if there was an exception.", "quantifier": "all sequences of queries, configurations, policy names, texts of outputs and expected files, schemes", "why_tests_cant": "Scheme files, their configurations and the outputs are unbounded; the exit status combines counters of all of them.", "anchors": ["nca/NetworkConfig/NetworkConfigQueryRunner.py:NetworkConfigQueryRunner", "nca/NetworkConfig/QueryOutputHandler.py", "nca/SchemeRunner.py:SchemeRunner", "nca/nca_cli.py:run_args", "nca/nca_cli.py:nca_main", "nca/NetworkConfig/NetworkConfig.py:find_policy", "nca/NetworkConfig/NetworkConfig.py:clone_with_just_one_policy", "docs/SchemeFileFormat.md", "docs/CmdLineQueriesResults.md", "README.md"]}
{"id": "C66", "title": "What the sanity query reports", "statement": "The sanity query reports a conflict exactly if two Calico policies of the same order select a common peer and one allows while the other denies in a direction both are about. If there are only Kubernetes, Calico and authorization policies, no Pass rules, and no Kubernetes policy at odds with a Calico policy of order 1000, then no conflict means that the order in which the policies are read does not matter. Otherwise it reports issues, and each is real: a vacuous configuration, a policy or rule that selects nobody, a policy or rule that may be removed. A configuration that passes has none of these, as far as the redundancy and vacuity queries are exact. A rule named as the reason of a redundancy matches whatever the redundant rule matches; a policy named as the reason allows and denies whatever the redundant policy does.", "quantifier": "all configurations, all policies and rules, all connections", "why_tests_cant": "Conflicts, redundancy and the reasons quantify over all pairs of policies and all connections; tests compare the texts for a few files.", "anchors": ["nca/NetworkConfig/NetworkConfigQuery.py:SanityQuery", "nca/Resources/PolicyResources/CalicoNetworkPolicy.py:CalicoNetworkPolicy.is_conflicting", "nca/Resources/PolicyResources/CalicoNetworkPolicy.py:CalicoNetworkPolicy.rule_containing", "nca/Resources/PolicyResources/K8sNetworkPolicy.py:K8sNetworkPolicy.rule_containing", "nca/Resources/PolicyResources/IstioNetworkPolicy.py:IstioNetworkPolicy.rule_containing"]}
{"id": "C67", "title": "Where the resources of a configuration come from", "statement": "A configuration depends on nothing but the namespaces in the files named for namespaces, the endpoints and services in the files named for pods and the policies in the files named for policies, where the general list of resources stands in for lists that are not given. Endpoints and namespaces that are found are its own; with no list of pods and no endpoints in the resources those of the global configuration are used, and likewise for namespaces. Each configuration of a scheme file is the one it would be without the others. Resources that the user did not name are added only if a policy refers to something missing: a label in a selector that matches nobody, a label of a Gateway that nobody has, or a controller for an Ingress; all files that supply it are added, and then, if pods are read from files, an endpoint with the label is there.", "quantifier": "all contents of files, lists, global configurations and sequences of configurations", "why_tests_cant": "Files and lists are unbounded, and the claims compare runs on different files and in different orders.", "anchors": ["nca/NetworkConfig/ResourcesHandler.py:ResourcesHandler.get_network_config", "nca/NetworkConfig/ResourcesHandler.py:ResourcesHandler.set_global_peer_container", "nca/NetworkConfig/ResourcesHandler.py:ResourcesHandler.analyze_livesim", "nca/NetworkConfig/ResourcesHandler.py:ResourcesParser.parse_lists_for_topology", "nca/NetworkConfig/ResourcesHandler.py:ResourcesParser.parse_lists_for_policies", "nca/Parsers/K8sPolicyYamlParser.py:parse_label_selector", "nca/Parsers/IstioGatewayYamlParser.py:parse_gateway"]}
{"id": "C68", "title": "What an explanation lists", "statement": "With --explain, the explanation of two connected endpoints lists, at the source, exactly the policies that select it and let it reach the destination, or the default policy if no policy limits the source, and likewise at the destination; none is left out, names come in increasing order and once, the default policy never stands beside an explicit one, and at both ends there is a reason. The explanation of two endpoints that are not connected, or of one endpoint, lists exactly the policies that select it (and the default policy if a direction is not limited); of two that are not connected, a policy that limits one of them is listed there. Each policy and resource is shown with the file and line it was read from. The explanation of everything has one entry for each ordered pair. Nothing depends on the order in which files are read.", "quantifier": "all endpoints, policies, selections, allowed peers and connectivity maps", "why_tests_cant": "The lists are the result of a sequence of updates whose length is the number of policies times the number of endpoints; the order of files is arbitrary.", "anchors": ["nca/Utils/ExplTracker.py:ExplTracker.explain", "nca/Utils/ExplTracker.py:ExplTracker.explain_all", "nca/Utils/ExplTracker.py:ExplTracker.add_policy_to_peers", "nca/Utils/ExplTracker.py:ExplTracker.add_default_policy", "nca/Utils/ExplTracker.py:ExplTracker.set_connections_and_peers", "nca/NetworkConfig/PoliciesFinder.py:PoliciesFinder.parse_policies_in_parse_queue", "nca/NetworkConfig/NetworkLayer.py:K8sCalicoNetworkLayer", "nca/SchemeRunner.py:SchemeRunner.activate_exp_tracker"]}
{"id": "C69", "title": "What the texts on arrows of a dot graph stand for", "statement": "In a dot graph, two arrows (or cliques) carry the same text exactly if they carry the same connections. If there is a legend, it has exactly one row for each set of connections in use, the text on an arrow is in exactly one row, and that row gives the connections of the arrow; if there is none, the text is the connections. The text starts with the protocol and the first port. Texts and legend do not depend on the order in which nodes and edges are added. Every edge is drawn, with heads where traffic goes to; every node is drawn, in the cluster of its namespace, and namespaces have different clusters.", "quantifier": "all sequences of nodes and edges added to a graph, all label texts (of the usual form where stated)", "why_tests_cant": "Short names are made by cutting texts and adding letters or numbers; whether two labels can end up with one name is a question over all sets of labels, of any number.", "anchors": ["nca/FWRules/DotGraph.py: DotGraph.add_node, add_edge, to_str, _set_labels_dict, get_val_by_key_from_list, _labels_dict_to_str, _subgraph_to_str, _node_to_str, _edge_to_str", "nca/FWRules/ConnectivityGraph.py: ConnectivityGraph.get_connectivity_dot_format_str"]}
{"id": "C70", "title": "The plain list of connections tells exactly the allowed connections", "statement": "In the output format txt_no_fw_rules, a connection between two peers that are told apart by their names is allowed if and only if a line of the list gives the names of its ends and a printed set of connections that has it; when the list is split, the TCP part tells exactly the allowed TCP connections and the non-TCP part exactly the others. Every line is true of some peers with its names. No line is about a peer and itself. The lines come in increasing order and once, after the header of the part.", "quantifier": "all connectivity maps, peers, address ranges and connections", "why_tests_cant": "The map is cut into cubes and pieces of peer sets, protocols are left out and sets may be printed by their complement; maps and peers are unbounded.", "anchors": ["nca/FWRules/ConnectivityGraph.py:add_props_to_graph", "nca/FWRules/ConnectivityGraph.py:add_edges_from_cube_dict", "nca/FWRules/ConnectivityGraph.py:get_connections_without_fw_rules_txt_format", "nca/NetworkConfig/NetworkConfigQuery.py:txt_no_fw_rules_format_from_props", "nca/NetworkConfig/NetworkConfigQuery.py:convert_props_to_split_by_tcp", "nca/CoreDS/ConnectivityProperties.py:extract_src_dst_peers_from_cube"]}
