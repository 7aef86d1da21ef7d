{
 "claims": [
  {
   "property": "C01",
   "status": "proved",
   "theorems": [
    "Verif.C01_addInterval_exact",
    "Verif.C01_union_exact"
   ],
   "note": "Exactness of union and of adding one interval, for all reachable (= canonical) sets."
  },
  {
   "property": "C02",
   "status": "proved",
   "theorems": [
    "Verif.C02_inter_exact"
   ],
   "note": ""
  },
  {
   "property": "C03",
   "status": "proved",
   "theorems": [
    "Verif.C03_addHole_exact",
    "Verif.C03_diff_exact"
   ],
   "note": ""
  },
  {
   "property": "C04",
   "status": "proved",
   "theorems": [
    "Verif.C04_canonical_reachable",
    "Verif.C04_inverted_range_not_canonical",
    "Verif.C04_reachable_canonical"
   ],
   "note": "Invariant by induction over histories; C04_inverted_range_not_canonical shows the guard on inverted ranges is needed."
  },
  {
   "property": "C05",
   "status": "proved",
   "theorems": [
    "Verif.C05_eq_extensional",
    "Verif.C05_union_comm"
   ],
   "note": ""
  },
  {
   "property": "C06",
   "status": "proved",
   "theorems": [
    "Verif.C06_containedIn_exact",
    "Verif.C06_contains_exact"
   ],
   "note": ""
  },
  {
   "property": "C07",
   "status": "proved",
   "theorems": [
    "Verif.C07_isSingleValue_exact",
    "Verif.C07_overlaps_exact",
    "Verif.C07_overlaps_iff_inter_truthy",
    "Verif.C07_rep_least",
    "Verif.C07_truthy_exact"
   ],
   "note": ""
  },
  {
   "property": "C08",
   "status": "proved",
   "theorems": [
    "Verif.HC.C08_addCube_exact",
    "Verif.HC.C08_cube_exact",
    "Verif.HC.C08_domain_unconstrained",
    "Verif.HC.C08_empty_dimension"
   ],
   "note": "Any lawful value algebra; interval and language instances proved lawful in CubeInst."
  },
  {
   "property": "C09",
   "status": "proved",
   "theorems": [
    "Verif.HC.C09_and_exact"
   ],
   "note": "Objects of both classes, any active dimensions."
  },
  {
   "property": "C10",
   "status": "proved",
   "theorems": [
    "Verif.HC.C10_or_exact",
    "Verif.HC.Ex.C10_or_after_unguarded_sub_wrong"
   ],
   "note": "For objects with guarded histories; C10_or_after_unguarded_sub_wrong shows what happens after an unguarded subtraction from an empty set."
  },
  {
   "property": "C11",
   "status": "partial",
   "theorems": [
    "Verif.HC.C11_sub_exact_of_nonempty",
    "Verif.HC.C11_sub_exact_partial",
    "Verif.HC.Ex.C11_sub_from_empty_wrong"
   ],
   "note": "Exact when the left operand is non-empty or the right one has no new active dimension; otherwise false in the code: C11_sub_from_empty_wrong."
  },
  {
   "property": "C12",
   "status": "proved",
   "theorems": [
    "Verif.HC.C12_contains_exact"
   ],
   "note": ""
  },
  {
   "property": "C13",
   "status": "proved",
   "theorems": [
    "Verif.HC.C13_containedIn_exact"
   ],
   "note": "Includes that no assertion inside fails."
  },
  {
   "property": "C14",
   "status": "partial",
   "theorems": [
    "Verif.HC.C14_firstItem_partial",
    "Verif.HC.C14_isAll_exact",
    "Verif.HC.C14_truthy_exact_partial"
   ],
   "note": "For histories that do not subtract from an empty set with reduced dimensions; false otherwise (C11_sub_from_empty_wrong)."
  },
  {
   "property": "C15",
   "status": "partial",
   "theorems": [
    "Verif.HC.C15_eq_extensional_partial",
    "Verif.HC.C15_eq_sound",
    "Verif.HC.Ex.C15_connprops_eq_incomplete"
   ],
   "note": "Proved for the plain class; for ConnectivityProperties only soundness holds, completeness is false: C15_connprops_eq_incomplete."
  },
  {
   "property": "C16",
   "status": "proved",
   "theorems": [
    "Verif.HC.C16_cubes_disjoint_cover"
   ],
   "note": ""
  },
  {
   "property": "C17",
   "status": "proved",
   "theorems": [
    "Verif.HC.C17_activate_preserves",
    "Verif.HC.C17_active_dims_matter",
    "Verif.HC.C17_reduce_preserves"
   ],
   "note": ""
  },
  {
   "property": "C18",
   "status": "proved",
   "theorems": [
    "Verif.HC.C18_algebra_eq",
    "Verif.HC.C18_algebra_mem",
    "Verif.HC.C18_difference",
    "Verif.HC.C18_difference_eq"
   ],
   "note": "As == for the plain class, as membership for both classes."
  },
  {
   "property": "C19",
   "status": "proved",
   "theorems": [
    "Verif.C19_bool_exact",
    "Verif.C19_eq_extensional",
    "Verif.C19_names_exact",
    "Verif.C19_numbers_exact",
    "Verif.C19_union_forgets_exclusions"
   ],
   "note": "Single ports, ranges, union, difference, equality, emptiness. The class has no intersection. C19_union_forgets_exclusions: union drops the excluded named ports of its right operand, so named exclusions are exact only for the left operand."
  },
  {
   "property": "C20",
   "status": "proved",
   "theorems": [
    "Verif.C20_contains_exact",
    "Verif.C20_methods_exact",
    "Verif.C20_methods_printed",
    "Verif.C20_name_number",
    "Verif.C20_nonTcp_exact",
    "Verif.C20_number_valid",
    "Verif.C20_protocols_exact",
    "Verif.C20_protocols_no_exception",
    "Verif.C20_protocols_printed"
   ],
   "note": "Names, numbers and the printed form included; two protocol names share number 84."
  },
  {
   "property": "C21",
   "status": "proved",
   "theorems": [
    "Verif.IpBlock.C21_all_exact",
    "Verif.IpBlock.C21_cidr_error",
    "Verif.IpBlock.C21_cidr_exact",
    "Verif.IpBlock.C21_containedIn_exact",
    "Verif.IpBlock.C21_count_exact",
    "Verif.IpBlock.C21_diff_exact",
    "Verif.IpBlock.C21_eq_extensional",
    "Verif.IpBlock.C21_inter_exact",
    "Verif.IpBlock.C21_ipv4_exact",
    "Verif.IpBlock.C21_never_mixed",
    "Verif.IpBlock.C21_operations_commute",
    "Verif.IpBlock.C21_overlaps_exact",
    "Verif.IpBlock.C21_remove_exact",
    "Verif.IpBlock.C21_saturates",
    "Verif.IpBlock.C21_split_exact",
    "Verif.IpBlock.C21_truthy_exact",
    "Verif.IpBlock.C21_union_exact"
   ],
   "note": "All histories of IpBlock operations, IPv4 and IPv6; the embedding into integers is the one used inside connections."
  },
  {
   "property": "C22",
   "status": "partial",
   "theorems": [
    "Verif.Base.C22_contains_block_incomplete",
    "Verif.Base.C22_domain_error",
    "Verif.Base.C22_domain_partial",
    "Verif.Base.C22_from_indices_exact_partial",
    "Verif.Base.C22_indices_disjoint",
    "Verif.Base.C22_operations_commute",
    "Verif.Base.C22_register",
    "Verif.Base.C22_registry",
    "Verif.Base.C22_round_trip",
    "Verif.Base.C22_round_trip_back",
    "Verif.Base.C22_spurious_last",
    "Verif.Base.C22_to_indices_defined",
    "Verif.Base.C22_to_indices_exact",
    "Verif.PeerSet.C22_and_exact",
    "Verif.PeerSet.C22_canonical_form",
    "Verif.PeerSet.C22_contains_block_partial",
    "Verif.PeerSet.C22_contains_block_sound",
    "Verif.PeerSet.C22_contains_pod",
    "Verif.PeerSet.C22_eq_extensional",
    "Verif.PeerSet.C22_mask_exact",
    "Verif.PeerSet.C22_or_exact",
    "Verif.PeerSet.C22_split_exact",
    "Verif.PeerSet.C22_sub_exact"
   ],
   "note": "Round trip in both directions and agreement of all operations are proved for every peer set over every reachable registry. Full claim false for index sets beyond the registered peers (C22_spurious_last) and for the whole domain without peers (C22_domain_error); `in` for a block is sound but incomplete (C22_contains_block_incomplete)."
  },
  {
   "property": "C23",
   "status": "partial",
   "theorems": [
    "Verif.K8sParser.C23_defined",
    "Verif.K8sParser.C23_empty",
    "Verif.K8sParser.C23_exists_complement_partial",
    "Verif.K8sParser.C23_exists_restricted",
    "Verif.K8sParser.C23_in_not_in",
    "Verif.K8sParser.C23_monotone",
    "Verif.K8sParser.C23_network_sets_partial",
    "Verif.K8sParser.C23_ns_complement",
    "Verif.K8sParser.C23_ns_empty_value_wrong",
    "Verif.K8sParser.C23_ns_selector_partial",
    "Verif.K8sParser.C23_overlapping_sets_wrong",
    "Verif.K8sParser.C23_peer_block",
    "Verif.K8sParser.C23_peer_partial",
    "Verif.K8sParser.C23_pod_selector_partial",
    "Verif.K8sParser.C23_pod_selector_sound",
    "Verif.K8sParser.C23_selected_pods"
   ],
   "note": "Exact for all selectors and containers when no requirement is Exists/DoesNotExist on a pod selector (these are restricted to the policy's namespace: C23_exists_restricted), namespaces carry every key whose empty value is selected (C23_ns_empty_value_wrong) and network sets are disjoint (C23_overlapping_sets_wrong)."
  },
  {
   "property": "C24",
   "status": "partial",
   "theorems": [
    "Verif.C24_decided_iff_matched_partial",
    "Verif.C24_disjoint_partial",
    "Verif.C24_first_match_partial",
    "Verif.C24_log_irrelevant",
    "Verif.Demo.C24_pass_spurious_nonempty"
   ],
   "note": "First match for all rule lists; rules with action Pass need a connection algebra in which subtraction from every set is exact (SubExact). For hyper-cube sets with Pass the emptiness claim is false: C24_pass_spurious_nonempty."
  },
  {
   "property": "C25",
   "status": "partial",
   "theorems": [
    "Verif.C25_first_policy_partial",
    "Verif.C25_policy_verdict",
    "Verif.C25_precedence",
    "Verif.C25_precedence_unique"
   ],
   "note": "All policy sets and orders; same restriction on Pass rules as C24. C25_precedence is unrestricted."
  },
  {
   "property": "C26",
   "status": "partial",
   "theorems": [
    "Verif.C26_captured_exact_partial",
    "Verif.C26_host_endpoint_default_deny_partial",
    "Verif.C26_istio_captured_partial",
    "Verif.C26_istio_uncaptured_partial",
    "Verif.C26_uncaptured_allowed_partial",
    "Verif.Plain.C26_dns_default_lost",
    "Verif.Plain.C26_dns_default_lost_config"
   ],
   "note": "Same restriction on Pass rules; the DNS default is lost by filters: C26_dns_default_lost."
  },
  {
   "property": "C27",
   "status": "proved",
   "theorems": [
    "Verif.C27_adding_monotone",
    "Verif.C27_additive",
    "Verif.C27_order_accepted",
    "Verif.C27_order_irrelevant"
   ],
   "note": "Any number and order of Kubernetes policies."
  },
  {
   "property": "C28",
   "status": "partial",
   "theorems": [
    "Verif.C28_deny_overrides_partial",
    "Verif.C28_istio_ingress_exact_partial",
    "Verif.Plain.C28_insertion_order_wrong"
   ],
   "note": "Same restriction on Pass rules; gateway layers depend on insertion order: C28_insertion_order_wrong."
  },
  {
   "property": "C29",
   "status": "partial",
   "theorems": [
    "Verif.C29_config_allows_partial",
    "Verif.C29_config_captured_partial",
    "Verif.C29_config_denied_partial",
    "Verif.C29_config_sound_partial"
   ],
   "note": "Same restriction on Pass rules."
  },
  {
   "property": "C30",
   "status": "partial",
   "theorems": [
    "Verif.C30_filter_selects_partial",
    "Verif.C30_not_asked",
    "Verif.Plain.C30_filter_hep_wrong"
   ],
   "note": "Exact for configurations without host end points in the filtered layer; otherwise false: C30_filter_hep_wrong."
  },
  {
   "property": "C31",
   "status": "partial",
   "theorems": [
    "Verif.C31_agrees_partial",
    "Verif.C31_agrees_two_way_partial",
    "Verif.C31_equivalent_exact_partial",
    "Verif.C31_equivalent_sound_partial",
    "Verif.C31_explanation_partial",
    "Verif.C31_not_executed",
    "Verif.Demo.C31_empty_wrong",
    "Verif.Demo.C31_incomplete_wrong",
    "Verif.K8sParser.C31_k8s_partial",
    "Verif.Plain.C31_order_wrong"
   ],
   "note": "Equivalence exact when IPv6 addresses are excluded (the default), for configurations that allow something or have one layer; unconditional claim refuted: C31_incomplete_wrong, C31_empty_wrong (IPv6 included), C31_order_wrong (equal-order policies inserted in another order). C31_k8s_partial: exact for two lists of texts of Kubernetes policies of one cluster."
  },
  {
   "property": "C32",
   "status": "partial",
   "theorems": [
    "Verif.C32_containment_partial",
    "Verif.C32_forbids_partial",
    "Verif.C32_interferes_partial",
    "Verif.C32_permits_partial",
    "Verif.C32_two_way_partial",
    "Verif.K8sParser.C32_k8s_partial",
    "Verif.Plain.C32_two_way_code_wrong"
   ],
   "note": "Same conditions as C31; numerical result of the two-way query on the command line refuted by C32_two_way_code_wrong. C32_k8s_partial: containment from the texts of Kubernetes policies."
  },
  {
   "property": "C33",
   "status": "partial",
   "theorems": [
    "Verif.C33_answer_partial",
    "Verif.C33_exact_partial",
    "Verif.C33_once_partial",
    "Verif.C33_same_partial",
    "Verif.C33_sound_partial",
    "Verif.K8sParser.C33_k8s_partial",
    "Verif.Plain.C33_uncaptured_wrong"
   ],
   "note": "Exact for captured peers; refuted for peers of one configuration only that no policy captures: C33_uncaptured_wrong. C33_k8s_partial: from the texts of Kubernetes policies, for one cluster; complete there, but for connections of a pod with itself."
  },
  {
   "property": "C34",
   "status": "partial",
   "theorems": [
    "Verif.C34_policy_partial",
    "Verif.C34_query_partial",
    "Verif.C34_rule_partial",
    "Verif.K8sParser.C34_k8s_partial",
    "Verif.K8sParser.C34_k8s_query_partial",
    "Verif.Plain.C34_deny_sidecar_wrong",
    "Verif.Plain.C34_duplicate_wrong",
    "Verif.Plain.C34_policies_lost_wrong",
    "Verif.Plain.C34_same_name_wrong",
    "Verif.Plain.C34_sidecar_wrong",
    "Verif.Plain.C34_tie_wrong"
   ],
   "note": "Reported policies and rules may be removed one at a time; refuted without the conditions: C34_same_name_wrong, C34_sidecar_wrong, C34_duplicate_wrong, C34_tie_wrong, C34_deny_sidecar_wrong (a redundant rule is not reported), C34_policies_lost_wrong. C34_k8s_partial: redundant policies exact for texts of Kubernetes policies."
  },
  {
   "property": "C35",
   "status": "partial",
   "theorems": [
    "Verif.C35_disjoint_partial",
    "Verif.C35_empty",
    "Verif.C35_empty_rule",
    "Verif.C35_vacuity_partial",
    "Verif.C35_vacuity_pods_partial",
    "Verif.K8sParser.C35_disjoint_k8s_partial",
    "Verif.K8sParser.C35_k8s_partial",
    "Verif.Plain.C35_twin_wrong"
   ],
   "note": "Emptiness unconditional; vacuity under the conditions of C31; disjointness unless a Calico profile and a global policy of one name are equal, refuted otherwise: C35_twin_wrong. C35_k8s_partial: vacuity exact for texts of Kubernetes policies. C35_disjoint_k8s_partial: two such policies are reported exactly if they select a common pod."
  },
  {
   "property": "C36",
   "status": "partial",
   "theorems": [
    "Verif.C36_map_partial",
    "Verif.C36_parts_partial",
    "Verif.C36_split",
    "Verif.Plain.C36_deployment_part_wrong"
   ],
   "note": "Proved in full with IPv6 addresses excluded (the default). With IPv6 addresses shown the configuration must allow some connection or have a single layer, because subtraction from an empty set is not exact (C11_sub_from_empty_wrong). C36_deployment_part_wrong: a deployment subset also selects deployments whose name contains the given one."
  },
  {
   "property": "C37",
   "status": "proved",
   "theorems": [
    "Verif.Demo.C37_self_example",
    "Verif.Fw.C37_rules"
   ],
   "note": "C37_rules: for all connection sets, clusters, options and orders of iteration, with the laws of connection sets as hypotheses; hcFwNet_laws proves the laws for hyper-cube sets of any dimensions (FwCube.lean) and fwRules_example is an instance. C37_self_example: the exception of connections of a workload to itself is real. Assumed: no connection from an address to an address or DNS entry (removed from every map before rules are computed), and there are addresses and workloads."
  },
  {
   "property": "C38",
   "status": "partial",
   "theorems": [
    "Verif.Fw.C38_conjunction_wrong",
    "Verif.Fw.C38_group_pods",
    "Verif.Fw.C38_grouping",
    "Verif.Fw.C38_grouping_main",
    "Verif.Fw.C38_printed_partial",
    "Verif.Fw.C38_printed_simple"
   ],
   "note": "C38_grouping, C38_grouping_main and C38_group_pods: the groups and remaining pods are exactly the pods to describe, for all clusters. C38_printed_simple: the printed expression of a simple key is exact. C38_printed_partial: for conjunctions of keys it selects all pods of the group, and no others unless values get mixed. The full claim is PrintedExact, disproved by C38_conjunction_wrong: values 1:1 and 2:2 of a:b are printed as has(a) and has(b)."
  },
  {
   "property": "C39",
   "status": "partial",
   "theorems": [
    "Verif.Graph.C39_dot_partial",
    "Verif.Graph.C39_made",
    "Verif.Graph.C39_made_iff",
    "Verif.Graph.Ex.C39_clique_names_clash_wrong",
    "Verif.Graph.Ex.C39_group_label_lost_wrong",
    "Verif.Graph.Ex.C39_multi_range_raises"
   ],
   "note": "C39_dot_partial: the drawing says exactly what the connections are, for peers whose nodes do not clash and whose group has one connection. C39_made_iff and C39_made: when the drawing is made. Disproved parts with witnesses: C39_group_label_lost_wrong (a shared box shows one of several connections), C39_clique_names_clash_wrong (clique nodes of two connections get one name), C39_multi_range_raises (KeyError for IP blocks with several ranges)."
  },
  {
   "property": "C40",
   "status": "proved",
   "theorems": [
    "Verif.C40_simplified_exact",
    "Verif.C40_str_exact",
    "Verif.C40_text_faithful"
   ],
   "note": "All histories of connection sets; values of protocols and methods are covered by C20. Texts of regular expressions for hosts and paths are not modelled."
  },
  {
   "property": "C41",
   "status": "proved",
   "theorems": [
    "Verif.C41_captured"
   ],
   "note": ""
  },
  {
   "property": "C42",
   "status": "partial",
   "theorems": [
    "Verif.C42_not_executed",
    "Verif.C42_strong_partial",
    "Verif.K8sParser.C42_k8s_partial",
    "Verif.Plain.C42_same_name_raises"
   ],
   "note": "For unique full names (otherwise the query raises: C42_same_name_raises), under the conditions of C31. C42_k8s_partial: exact for texts of Kubernetes policies."
  },
  {
   "property": "C43",
   "status": "partial",
   "theorems": [
    "Verif.C43_from_dict",
    "Verif.C43_named_ports",
    "Verif.C43_pod_ports",
    "Verif.C43_registered",
    "Verif.C43_registered_agree",
    "Verif.C43_single_protocol",
    "Verif.NamedEx.C43_second_configuration_wrong",
    "Verif.NamedEx.C43_several_protocols"
   ],
   "note": "C43_from_dict, C43_named_ports, C43_single_protocol: exact for all cubes, registries and orders of iteration, over the ten real dimensions. The names are those of the pod object registered first under its name (C43_registered); C43_registered_agree: right when all configurations agree. Full claim disproved by C43_second_configuration_wrong: a second configuration whose pod of the same name has other ports is analysed with the ports of the first."
  },
  {
   "property": "C44",
   "status": "partial",
   "theorems": [
    "Verif.K8sParser.C44_accepted",
    "Verif.K8sParser.C44_policy_partial",
    "Verif.K8sParser.C44_rule_partial",
    "Verif.K8sParser.Ex.C44_empty_egress_wrong",
    "Verif.K8sParser.Ex.C44_types_order_rejected"
   ],
   "note": "C44_rule_partial, C44_policy_partial: exact for every accepted policy, cluster of pods and DNS entries, and connection, over the ten real dimensions; excluded are the selector defects of C23 (PolicyRule.Tame) and an empty egress field without policyTypes, for which C44_empty_egress_wrong disproves the claim. C44_accepted: the parser accepts exactly these policies (field names, types and texts of names and addresses are not modelled). C44_types_order_rejected: policyTypes [Egress, Ingress] is rejected."
  },
  {
   "property": "C45",
   "status": "partial",
   "theorems": [
    "Verif.K8sParser.C45_accepted",
    "Verif.K8sParser.C45_captured_partial",
    "Verif.K8sParser.C45_config_partial",
    "Verif.K8sParser.C45_good_partial",
    "Verif.K8sParser.Ex.C45_empty_egress_wrong"
   ],
   "note": "C45_config_partial: from the texts of the policies to the allowed connections, for all lists of policies, clusters and connections, in the domain of any query on the configuration; same exclusions as C44 (C45_empty_egress_wrong shows the effect of one of them). C45_accepted: which lists are accepted. C45_good_partial: such configurations meet the hypotheses of the theorems on queries and maps. C45_captured_partial: the query for captured pods reports exactly the pods that the texts do not isolate."
  },
  {
   "property": "C46",
   "status": "proved",
   "theorems": [
    "Verif.C46_independent",
    "Verif.C46_restored",
    "Verif.K8sParser.C46_domain",
    "Verif.K8sParser.C46_rule_exact"
   ],
   "note": "C46_domain: the domain of a query holds exactly the addresses and peers of its configurations. C46_rule_exact: a parsed Kubernetes rule, reduced by the query, is a legal set of the same connections. C46_restored, C46_independent: any sequence of queries over a heap of shared rules and policies, with the lazily computed sets; exceptions inside a query are not modelled, and what a query computes is any program that reads rules and policies."
  },
  {
   "property": "C47",
   "status": "partial",
   "theorems": [
    "Verif.CalicoParser.C47_glued_operator_wrong",
    "Verif.CalicoParser.C47_namespace_selector_partial",
    "Verif.CalicoParser.C47_rejected",
    "Verif.CalicoParser.C47_selector_partial",
    "Verif.CalicoParser.C47_trailing_text_wrong"
   ],
   "note": "C47_selector_partial, C47_namespace_selector_partial: exact for every text of the grammar (single quotes, non-empty values), container and namespace. Rejection of other texts is false: C47_trailing_text_wrong, C47_glued_operator_wrong; C47_rejected lists texts Calico accepts and the code reports as errors. Overlapping network sets are excluded (C23)."
  },
  {
   "property": "C48",
   "status": "partial",
   "theorems": [
    "Verif.CalicoParser.C48_policy_partial",
    "Verif.CalicoParser.C48_rule_partial",
    "Verif.CalicoParser.Ex.C48_both_protocols_wrong",
    "Verif.CalicoParser.Ex.C48_empty_egress_wrong",
    "Verif.CalicoParser.Ex.C48_empty_ingress_wrong",
    "Verif.CalicoParser.Ex.C48_icmp_code_zero_wrong",
    "Verif.CalicoParser.Ex.C48_icmp_excluded_wrong",
    "Verif.CalicoParser.Ex.C48_icmp_zero_wrong",
    "Verif.CalicoParser.Ex.C48_name_minus_number_wrong",
    "Verif.CalicoParser.Ex.C48_nets_with_selector_wrong",
    "Verif.CalicoParser.Ex.C48_network_set_selected_wrong",
    "Verif.CalicoParser.Ex.C48_not_icmp_zero_wrong",
    "Verif.CalicoParser.Ex.C48_other_direction_rejected",
    "Verif.CalicoParser.Ex.C48_quoted_port_wrong",
    "Verif.CalicoParser.Ex.C48_source_port_name_wrong"
   ],
   "note": "C48_policy_partial, C48_rule_partial: for every legal policy without the constructs the code reads wrongly, the selected peers, governed directions, actions and connections are exact. The excluded constructs are each refuted with a witness (C48_*_wrong): ICMP type or code 0, notICMP that covers icmp, both protocols, quoted ports, named source ports, named ports minus numbers, networks with selectors, network sets as selected peers, empty lists of rules without types. ipVersion is not read by the code and not a field of the model; profiles only set labels."
  },
  {
   "property": "C49",
   "status": "partial",
   "theorems": [
    "Verif.CalicoParser.C49_accepted_partial",
    "Verif.CalicoParser.C49_config_partial",
    "Verif.CalicoParser.C49_domain",
    "Verif.CalicoParser.CfgEx.C49_tie_by_position"
   ],
   "note": "Proved from the texts of Kubernetes and Calico policies to the allowed connections of the configuration. Missing: Pass rules (C24), the texts misread by the parsers (C44, C48), Kubernetes policies together with host endpoints or network sets, the filter with explicitly allowed connections together with host endpoints (C30). Ties are decided by position, unlike in Calico (C49_tie_by_position)."
  },
  {
   "property": "C50",
   "status": "partial",
   "theorems": [
    "Verif.IstioParser.C50_every_point",
    "Verif.IstioParser.C50_policy_partial",
    "Verif.IstioParser.C50_policy_rejected",
    "Verif.IstioParser.C50_rule_partial",
    "Verif.IstioParser.Ex.C50_dotted_account_wrong",
    "Verif.IstioParser.Ex.C50_empty_list_wrong",
    "Verif.IstioParser.Ex.C50_host_endpoints_rejected",
    "Verif.IstioParser.Ex.C50_negative_misses_outside",
    "Verif.IstioParser.Ex.C50_networks_and_namespaces_wrong",
    "Verif.IstioParser.Ex.C50_no_spec_no_effect",
    "Verif.IstioParser.Ex.C50_not_ip_blocks_rejected",
    "Verif.IstioParser.Ex.C50_path_presence_wrong"
   ],
   "note": "C50_policy_partial, C50_rule_partial: for every legal policy without the constructs the code reads wrongly, the action, the selected pods and the requests each rule matches are exact. The excluded constructs are refuted with witnesses (C50_*_wrong, C50_*_rejected, C50_negative_misses_outside, C50_no_spec_no_effect). The automata library is assumed to give the words of the regular expressions the code writes (DfaLib, satisfied by languages)."
  },
  {
   "property": "C51",
   "status": "partial",
   "theorems": [
    "Verif.IstioParser.C51_accepted_partial",
    "Verif.IstioParser.C51_config_partial"
   ],
   "note": "C51_config_partial, C51_accepted_partial: from the texts of Kubernetes, Calico and authorization policies, in any order in the parse queue, to the allowed connections of the configuration. Missing: the texts misread by the parsers (C44, C48, C50), Pass rules (C24), host endpoints and network sets, and connections to DNS entries if every pod has an ALLOW policy (C26_dns_default_lost)."
  },
  {
   "property": "C52",
   "status": "partial",
   "theorems": [
    "Verif.IngressParser.C52_picked_pods_partial",
    "Verif.IngressParser.C52_target_pods",
    "Verif.IngressParser.Ex.C52_missing_port_wrong"
   ],
   "note": "C52_target_pods (exact, for all legal services): the target pods are the picked pods with all the named ports. C52_picked_pods_partial: if all picked pods have them, the targets are the picked pods; otherwise wrong (C52_missing_port_wrong)."
  },
  {
   "property": "C53",
   "status": "partial",
   "theorems": [
    "Verif.IngressParser.C53_ingress_partial",
    "Verif.IngressParser.C53_reads",
    "Verif.IngressParser.Ex.C53_controller_namespace_wrong",
    "Verif.IngressParser.Ex.C53_default_only_rejected",
    "Verif.IngressParser.Ex.C53_dot_wrong",
    "Verif.IngressParser.Ex.C53_empty_label_wrong",
    "Verif.IngressParser.Ex.C53_missing_service_wrong",
    "Verif.IngressParser.Ex.C53_no_host_default_wrong",
    "Verif.IngressParser.Ex.C53_no_http_rejected",
    "Verif.IngressParser.Ex.C53_no_pods_wrong",
    "Verif.IngressParser.Ex.C53_resource_wrong",
    "Verif.IngressParser.Ex.C53_root_default_wrong",
    "Verif.IngressParser.Ex.C53_same_prefix_wrong",
    "Verif.IngressParser.Ex.C53_two_rules_wrong",
    "Verif.IngressParser.Ex.C53_wildcard_wrong"
   ],
   "note": "C53_ingress_partial: exact for all legal Ingress resources, services and hosts without the constructs the code reads wrongly; C53_reads: what the policy allows for every host. The excluded constructs are refuted with witnesses (C53_*_wrong, C53_*_rejected). The automata library is assumed to give the words of the regular expressions (IngressLib, satisfied by languages)."
  },
  {
   "property": "C54",
   "status": "partial",
   "theorems": [
    "Verif.IngressParser.C54_accepted_partial",
    "Verif.IngressParser.C54_config_partial"
   ],
   "note": "C54_config_partial, C54_accepted_partial: from the texts of policies, services and Ingress resources to the allowed connections. Missing: the texts misread by the parsers (C44, C48, C50, C53), Pass rules, host endpoints and network sets, connections to DNS entries if every pod has an ALLOW policy."
  },
  {
   "property": "C55",
   "status": "partial",
   "theorems": [
    "Verif.MinDfa.C55_algebra_lawful",
    "Verif.MinDfa.C55_exact_partial",
    "Verif.MinDfa.C55_mixed_dimensions_wrong",
    "Verif.MinDfa.C55_operations_partial",
    "Verif.MinDfa.C55_questions_partial",
    "Verif.MinDfa.C55_refines_partial",
    "Verif.MinDfa.Ex.C55_host_lost"
   ],
   "note": "C55_operations_partial, C55_exact_partial, C55_questions_partial, C55_refines_partial: all executions in which no object is shared between two dimensions, over a correct automata library. Missing: shared objects, for which the claim is false (C55_mixed_dimensions_wrong, C55_host_lost); regex_expr and printing."
  },
  {
   "property": "C56",
   "status": "partial",
   "theorems": [
    "Verif.C56_empty_word_wrong",
    "Verif.C56_rectangle_partial",
    "Verif.MinDfa.Ex.C56_absent_host_lost"
   ],
   "note": "C56_rectangle_partial: all rectangles without the value {\"\"} of hosts or paths, for which the claim is false (C56_empty_word_wrong, C56_absent_host_lost)."
  },
  {
   "property": "C57",
   "status": "partial",
   "theorems": [
    "Verif.SidecarParser.C57_accepted_only",
    "Verif.SidecarParser.C57_conflict_rejected",
    "Verif.SidecarParser.C57_one_sidecar",
    "Verif.SidecarParser.C57_rule_partial",
    "Verif.SidecarParser.C57_sidecars",
    "Verif.SidecarParser.Ex.C57_bare_wildcard_accepted",
    "Verif.SidecarParser.Ex.C57_domain_wrong",
    "Verif.SidecarParser.Ex.C57_entry_wildcard_wrong",
    "Verif.SidecarParser.Ex.C57_no_listeners_wrong",
    "Verif.SidecarParser.Ex.C57_one_label_rejected",
    "Verif.SidecarParser.Ex.C57_short_wildcard_wrong",
    "Verif.SidecarParser.Ex.C57_wildcard_dns_wrong",
    "Verif.SidecarParser.Ex.C57_wildcard_namespace_wrong"
   ],
   "note": "C57_sidecars, C57_one_sidecar, C57_conflict_rejected: which Sidecar is the one of a workload, for all legal resources. C57_accepted_only: which resources are accepted at most. C57_rule_partial: the TCP connections of each rule, for hosts and listeners that the code reads as Istio does; the excluded ones are refuted with witnesses (C57_*_wrong, C57_one_label_rejected)."
  },
  {
   "property": "C58",
   "status": "partial",
   "theorems": [
    "Verif.SidecarParser.C58_accepted_partial",
    "Verif.SidecarParser.C58_config_partial"
   ],
   "note": "C58_config_partial, C58_accepted_partial: from the texts of policies, services, Ingress and Sidecar resources to the allowed connections. Missing: the texts misread by the parsers (C44, C48, C50, C53, C57), and what is missing in C54."
  },
  {
   "property": "C59",
   "status": "partial",
   "theorems": [
    "Verif.GtwParser.C59_egress_internal_rejected",
    "Verif.GtwParser.C59_gateways_partial",
    "Verif.GtwParser.C59_host_namespace_wrong",
    "Verif.GtwParser.C59_match_gateways_wrong",
    "Verif.GtwParser.C59_no_hosts_crashes",
    "Verif.GtwParser.C59_no_uri_wrong",
    "Verif.GtwParser.C59_only_ignored_crashes",
    "Verif.GtwParser.C59_prefix_wrong",
    "Verif.GtwParser.C59_product_wrong",
    "Verif.GtwParser.C59_sni_slash_crashes",
    "Verif.GtwParser.C59_unknown_method_wrong",
    "Verif.GtwParser.C59_wildcard_wrong",
    "Verif.GtwParser.Ex.C59_mesh_host_wrong",
    "Verif.GtwParser.Ex.C59_mixed_rejected",
    "Verif.GtwParser.Ex.C59_order_wrong"
   ],
   "note": "C59_gateways_partial: from the texts of gateways, virtual services and services to the policies and the requests that they are about (PolsSay). Missing: the gateways, virtual services and requests that the code reads differently from Istio; they are refuted with witnesses (C59_*_wrong, C59_*_rejected, C59_*_crashes in PropsGatewayBad)."
  },
  {
   "property": "C60",
   "status": "partial",
   "theorems": [
    "Verif.GtwParser.C60_accepted_partial",
    "Verif.GtwParser.C60_config_partial",
    "Verif.GtwParser.Ex.C60_numbers_wrong"
   ],
   "note": "C60_config_partial, C60_accepted_partial: from the texts of all kinds of resources to the allowed connections, and which configurations are accepted. Missing: the texts misread by the parsers (C44, C48, C50, C53, C57, C59) and what is missing in C54. C60_numbers_wrong: legal virtual services that are rejected because names of policies coincide."
  },
  {
   "property": "C61",
   "status": "partial",
   "theorems": [
    "Verif.Topology.Bad.C61_cronjob_wrong",
    "Verif.Topology.Bad.C61_daemonset_wrong",
    "Verif.Topology.Bad.C61_namespace_after_wrong",
    "Verif.Topology.Bad.C61_pod_list_wrong",
    "Verif.Topology.Bad.C61_ports_lost_wrong",
    "Verif.Topology.Bad.C61_same_name_wrong",
    "Verif.Topology.Bad.C61_same_nets_wrong",
    "Verif.Topology.Bad.C61_twice_wrong",
    "Verif.Topology.Bad.C61_workload_wrong",
    "Verif.Topology.C61_accepted",
    "Verif.Topology.C61_calico_cluster",
    "Verif.Topology.C61_described",
    "Verif.Topology.C61_istio_cluster",
    "Verif.Topology.C61_namespaces",
    "Verif.Topology.C61_nodup",
    "Verif.Topology.C61_one",
    "Verif.Topology.C61_registered",
    "Verif.Topology.C61_rejected",
    "Verif.Topology.C61_two_partial",
    "Verif.Topology.C61_uniform"
   ],
   "note": "C61_described, C61_nodup, C61_one, C61_two_partial, C61_uniform, C61_namespaces, C61_registered, C61_accepted, C61_rejected: from the documents to the objects, for documents that the code reads right (Tame, Uniform). C61_calico_cluster and C61_istio_cluster: the result meets what the claims on policies assume of clusters. Missing: documents that are read wrongly, refuted with witnesses (C61_*_wrong in PropsTopologyBad)."
  },
  {
   "property": "C62",
   "status": "partial",
   "theorems": [
    "Verif.GtwParser.C62_calico_config_partial",
    "Verif.GtwParser.C62_config_partial",
    "Verif.Topology.C62_calico_partial",
    "Verif.Topology.C62_full",
    "Verif.Topology.C62_istio_partial",
    "Verif.Topology.C62_kept",
    "Verif.Topology.C62_mesh_partial",
    "Verif.Topology.C62_places"
   ],
   "note": "C62_places, C62_kept, C62_calico_partial, C62_istio_partial, C62_mesh_partial: policies and gateways say the same in the full cluster and in the analyzed one. C62_calico_config_partial, C62_config_partial: the computed connections are those of the full cluster. C62_full: the full cluster exists for all documents. Missing: documents that are read wrongly (C61), pods that differ in ports or service accounts only (Uniform), and what is missing in C49 and C60."
  },
  {
   "property": "C63",
   "status": "partial",
   "theorems": [
    "Verif.PolicyDocs.C63_accepts",
    "Verif.PolicyDocs.C63_config_partial",
    "Verif.PolicyDocs.C63_depends",
    "Verif.PolicyDocs.C63_full",
    "Verif.PolicyDocs.C63_kinds",
    "Verif.PolicyDocs.C63_labels_partial",
    "Verif.PolicyDocs.C63_read",
    "Verif.PolicyDocs.Ex.C63_old_ingress_wrong",
    "Verif.PolicyDocs.Ex.C63_order_wrong",
    "Verif.PolicyDocs.Ex.C63_own_wrong",
    "Verif.PolicyDocs.Ex.C63_rules_wrong"
   ],
   "note": "C63_kinds, C63_read, C63_depends: which documents are read, in which order, and with which labels. C63_labels_partial: selectors see the labels of Calico. C63_accepts. C63_config_partial: composition with C49, C61 and C62; C63_full. Missing: labels of endpoint and profiles that contradict each other (C63_own_wrong, C63_order_wrong), rules of profiles (C63_rules_wrong), an Ingress of an old version (C63_old_ingress_wrong), and what is missing in C49 and C61."
  },
  {
   "property": "C64",
   "status": "proved",
   "theorems": [
    "Verif.C64_block_unambiguous",
    "Verif.C64_tame",
    "Verif.C64_text",
    "Verif.C64_unambiguous",
    "Verif.IpBlock.C64_faithful",
    "Verif.IpBlock.C64_list_text",
    "Verif.IpBlock.C64_minimal",
    "Verif.IpBlock.C64_networks",
    "Verif.IpBlock.C64_range_text",
    "Verif.IpBlock.C64_read_back",
    "Verif.IpBlock.C64_short_text",
    "Verif.IpBlock.C64_shorter_wrong"
   ],
   "note": "C64_networks, C64_minimal, C64_read_back: the networks. C64_text, C64_unambiguous: addresses. C64_list_text, C64_range_text, C64_short_text, C64_block_unambiguous, C64_faithful: blocks. C64_tame: names made of the texts, for C61-C63. C64_shorter_wrong: the text is not always the shorter one, as documented. Printing and reading an address again is modelled as the identity."
  },
  {
   "property": "C65",
   "status": "partial",
   "theorems": [
    "Verif.Runner.C65_blank_wrong",
    "Verif.Runner.C65_cli_error",
    "Verif.Runner.C65_cli_status",
    "Verif.Runner.C65_compare_crlf",
    "Verif.Runner.C65_compare_missing",
    "Verif.Runner.C65_compare_partial",
    "Verif.Runner.C65_compare_self",
    "Verif.Runner.C65_compared",
    "Verif.Runner.C65_count_partial",
    "Verif.Runner.C65_diff_status_partial",
    "Verif.Runner.C65_empty_expected_wrong",
    "Verif.Runner.C65_equiv_status_partial",
    "Verif.Runner.C65_fails_partial",
    "Verif.Runner.C65_forbids_status_partial",
    "Verif.Runner.C65_global_name_wrong",
    "Verif.Runner.C65_global_policy_wrong",
    "Verif.Runner.C65_html_wrong",
    "Verif.Runner.C65_interferes_status_partial",
    "Verif.Runner.C65_kind_name",
    "Verif.Runner.C65_lonely_wrong",
    "Verif.Runner.C65_permits_status_partial",
    "Verif.Runner.C65_plain_name",
    "Verif.Runner.C65_policy_name",
    "Verif.Runner.C65_result_partial",
    "Verif.Runner.C65_return_0",
    "Verif.Runner.C65_scheme_count_partial",
    "Verif.Runner.C65_scheme_exit",
    "Verif.Runner.C65_scheme_runs",
    "Verif.Runner.C65_scheme_zero_partial",
    "Verif.Runner.C65_seven_wrong",
    "Verif.Runner.C65_short_policy_name",
    "Verif.Runner.C65_sub_queries_wrong",
    "Verif.Runner.C65_two_way_result",
    "Verif.Runner.C65_two_way_runs_wrong",
    "Verif.Runner.C65_wrap_wrong"
   ],
   "note": "C65_result_partial, C65_two_way_result, C65_fails_partial, C65_count_partial: the runs of a query. C65_plain_name, C65_policy_name, C65_short_policy_name, C65_kind_name: names. C65_compare_partial, C65_compare_crlf, C65_compare_self, C65_compared: expected output. C65_scheme_runs, C65_scheme_count_partial, C65_scheme_zero_partial, C65_scheme_exit: schemes. C65_cli_status, C65_cli_error, C65_equiv/interferes/permits/forbids/diff_status_partial: the command line. The *_wrong theorems are what the code does not meet (one configuration only, several sub-queries, html, empty expected files, blanks, more than 255 mismatches); the status theorems have the hypotheses of C31-C33."
  },
  {
   "property": "C66",
   "status": "partial",
   "theorems": [
    "Verif.C66_answer",
    "Verif.C66_answers_partial",
    "Verif.C66_conflict",
    "Verif.C66_order_partial",
    "Verif.C66_passes_partial",
    "Verif.C66_policy_reason_partial",
    "Verif.C66_real_partial",
    "Verif.C66_rule_reason",
    "Verif.C66_undisputed",
    "Verif.Plain.C66_crash_wrong",
    "Verif.Plain.C66_mixed_wrong",
    "Verif.Plain.C66_name_wrong",
    "Verif.Plain.C66_note_wrong",
    "Verif.Plain.C66_pass_wrong",
    "Verif.Plain.C66_reason_missing_wrong",
    "Verif.Plain.C66_sidecar_text_wrong"
   ],
   "note": "C66_conflict: conflicts, exact. C66_undisputed, C66_order_partial: what the absence of conflicts means. C66_answer: the verdict and the number. C66_real_partial, C66_passes_partial: the issues. C66_rule_reason, C66_policy_reason_partial: the reasons. C66_answers_partial: when no exception is raised. The *_wrong theorems are what the code does not meet (Pass rules, order 1000, exceptions, missing reasons, sidecars, the note about actions); the others have the hypotheses of C32, C34 and C35."
  },
  {
   "property": "C67",
   "status": "partial",
   "theorems": [
    "Verif.Sources.C67_added_partial",
    "Verif.Sources.C67_alone",
    "Verif.Sources.C67_found_partial",
    "Verif.Sources.C67_global_namespaces",
    "Verif.Sources.C67_global_pods",
    "Verif.Sources.C67_host_endpoints_wrong",
    "Verif.Sources.C67_independent",
    "Verif.Sources.C67_joined_partial",
    "Verif.Sources.C67_kept",
    "Verif.Sources.C67_livesim",
    "Verif.Sources.C67_livesim_extra_wrong",
    "Verif.Sources.C67_livesim_global_wrong",
    "Verif.Sources.C67_missing_gateway",
    "Verif.Sources.C67_missing_k8s_partial",
    "Verif.Sources.C67_needed_partial",
    "Verif.Sources.C67_no_pods",
    "Verif.Sources.C67_override",
    "Verif.Sources.C67_own_namespaces",
    "Verif.Sources.C67_own_namespaces_wrong",
    "Verif.Sources.C67_own_pods_partial",
    "Verif.Sources.C67_pod_list_wrong",
    "Verif.Sources.C67_services_lost_wrong"
   ],
   "note": "C67_override: which lists count. C67_own_pods_partial, C67_global_pods, C67_no_pods, C67_own_namespaces, C67_global_namespaces, C67_alone, C67_kept: own and global topology. C67_independent: configurations of a scheme. C67_missing_k8s_partial, C67_missing_gateway, C67_needed_partial, C67_added_partial, C67_livesim, C67_joined_partial, C67_found_partial: resources that are added. Missing: clusters with network sets (missing labels of Kubernetes policies), live clusters. The *_wrong theorems are what the code does not meet."
  },
  {
   "property": "C68",
   "status": "partial",
   "theorems": [
    "Verif.Expl.C68_all",
    "Verif.Expl.C68_all_blocks_wrong",
    "Verif.Expl.C68_all_shown_partial",
    "Verif.Expl.C68_block_partial",
    "Verif.Expl.C68_block_wrong",
    "Verif.Expl.C68_complete_partial",
    "Verif.Expl.C68_configs_wrong",
    "Verif.Expl.C68_connected_partial",
    "Verif.Expl.C68_default",
    "Verif.Expl.C68_dropped_wrong",
    "Verif.Expl.C68_lack_partial",
    "Verif.Expl.C68_named_port_wrong",
    "Verif.Expl.C68_names",
    "Verif.Expl.C68_order",
    "Verif.Expl.C68_policy_place_partial",
    "Verif.Expl.C68_reason_partial",
    "Verif.Expl.C68_resource_place_partial",
    "Verif.Expl.C68_same_name_wrong",
    "Verif.Expl.C68_scheme_wrong",
    "Verif.Expl.C68_shown_connected_partial",
    "Verif.Expl.C68_shown_lack_partial",
    "Verif.Expl.C68_single_partial",
    "Verif.Expl.C68_text"
   ],
   "note": "C68_connected_partial, C68_complete_partial, C68_default: reasons for connections. C68_lack_partial, C68_single_partial: what applies to an endpoint. C68_reason_partial: there is a reason. C68_order: order of reading. C68_text, C68_policy_place_partial, C68_resource_place_partial: texts and places. C68_shown_connected_partial, C68_shown_lack_partial: the whole text shown for two nodes. C68_block_partial: what is shown for a block of addresses. C68_all, C68_all_shown_partial, C68_names: all pairs and names of workloads. Missing: layers of Istio and gateways, host endpoints, reasons for blocks of addresses, policies that allow different peers to the peers they select (named ports). The *_wrong theorems are what the code does not meet."
  },
  {
   "property": "C69",
   "status": "partial",
   "theorems": [
    "Verif.Legend.C69_answers_partial",
    "Verif.Legend.C69_arrows_partial",
    "Verif.Legend.C69_boxes",
    "Verif.Legend.C69_clusters",
    "Verif.Legend.C69_legend_partial",
    "Verif.Legend.C69_order",
    "Verif.Legend.C69_port",
    "Verif.Legend.C69_protocol_port",
    "Verif.Legend.C69_rows",
    "Verif.Legend.C69_same_partial",
    "Verif.Legend.C69_strip",
    "Verif.Legend.Ex.C69_all_but_wrong",
    "Verif.Legend.Ex.C69_crash_wrong"
   ],
   "note": "C69_legend_partial, C69_same_partial: texts and labels correspond, for usual labels. C69_rows: rows of the legend. C69_order: order of adding. C69_arrows_partial, C69_boxes: edges and nodes are drawn. C69_answers_partial: no error for usual labels. C69_port, C69_protocol_port: what a text starts with. C69_strip: blanks at the ends of labels. C69_clusters: clusters of namespaces. Missing: names of protocols that end in small letters. The *_wrong theorems are what the code does not meet."
  },
  {
   "property": "C70",
   "status": "partial",
   "theorems": [
    "Verif.K8sParser.C70_k8s_partial",
    "Verif.PlainList.C70_complete",
    "Verif.PlainList.C70_exact_partial",
    "Verif.PlainList.C70_headers",
    "Verif.PlainList.C70_list_no_self",
    "Verif.PlainList.C70_list_partial",
    "Verif.PlainList.C70_no_self",
    "Verif.PlainList.C70_program_partial",
    "Verif.PlainList.C70_text",
    "Verif.PlainList.C70_true",
    "Verif.PlainList.Ex.C70_shared_name_wrong"
   ],
   "note": "C70_true: every line is true of some peers with its names. C70_complete: every allowed connection between peers told apart is in the list. C70_exact_partial, C70_list_partial: the list (also in two parts) is exact if peers have distinct names. C70_program_partial: the same for the connection sets and peers of the program, with addresses as ranges. C70_k8s_partial: from the texts of Kubernetes policies to the lines of the list. C70_no_self, C70_list_no_self, C70_text, C70_headers: what else is in the list. Missing: workloads whose replicas differ, for which it is false (C70_shared_name_wrong)."
  }
 ]
}