{
 "claims": [
  {
   "property": "C01",
   "status": "proved",
   "theorems": [
    "PyBBN.c01_dag_acyclic",
    "PyBBN.c01_dag_api_agrees"
   ],
   "note": "invariant over all call sequences"
  },
  {
   "property": "C02",
   "status": "proved",
   "theorems": [
    "PyBBN.c02_dag_add_edge_exact"
   ],
   "note": "exact decision incl. DFS exactness"
  },
  {
   "property": "C03",
   "status": "partial",
   "theorems": [
    "PyBBN.c03_bbn_acyclic_partial",
    "PyBBN.c03_bbn_edges_requested",
    "PyBBN.c03_false"
   ],
   "note": "false of the code (Bbn accepts cycles): counterexample proved; partial: acyclic iff requested edges are"
  },
  {
   "property": "C04",
   "status": "proved",
   "theorems": [
    "PyBBN.c04_graph_consistent",
    "PyBBN.c04_ug_readd_idempotent"
   ],
   "note": ""
  },
  {
   "property": "C05",
   "status": "partial",
   "theorems": [
    "PyBBN.c05_remove_node_partial",
    "PyBBN.c05_false"
   ],
   "note": "false for get_edges(): counterexample proved; nodes/neighbors/edge_exists proved"
  },
  {
   "property": "C06",
   "status": "proved",
   "theorems": [
    "PyBBN.c06_pdag_acyclic",
    "PyBBN.c06_pdag_edges"
   ],
   "note": ""
  },
  {
   "property": "C07",
   "status": "proved",
   "theorems": [
    "PyBBN.c07_parents_first_insertion"
   ],
   "note": ""
  },
  {
   "property": "C08",
   "status": "proved",
   "theorems": [
    "PyBBN.c08_clique_id_injective",
    "PyBBN.c08_sepset_id_injective",
    "PyBBN.c08_clique_sepset_disjoint"
   ],
   "note": ""
  },
  {
   "property": "C09",
   "status": "proved",
   "theorems": [
    "PyBBN.c09_potential_rows"
   ],
   "note": ""
  },
  {
   "property": "C10",
   "status": "proved",
   "theorems": [
    "PyBBN.c10_cpt_row_major",
    "PyBBN.c10_network_tables"
   ],
   "note": ""
  },
  {
   "property": "C11",
   "status": "proved",
   "theorems": [
    "PyBBN.c11_multiply",
    "PyBBN.c11_marginalize",
    "PyBBN.c11_divide",
    "PyBBN.c11_normalize"
   ],
   "note": ""
  },
  {
   "property": "C12",
   "status": "proved",
   "theorems": [
    "PyBBN.c12_moral_graph"
   ],
   "note": ""
  },
  {
   "property": "C13",
   "status": "proved",
   "theorems": [
    "PyBBN.c13_triangulation"
   ],
   "note": ""
  },
  {
   "property": "C14",
   "status": "proved",
   "theorems": [
    "PyBBN.c14_join_tree"
   ],
   "note": "For every network and every iteration order; acyclicity is Mathlib's SimpleGraph.IsAcyclic."
  },
  {
   "property": "C15",
   "status": "proved",
   "theorems": [
    "PyBBN.c15_running_intersection"
   ],
   "note": "Maximum-weight spanning forest argument (Kruskal with sepset mass as weight), for every iteration order."
  },
  {
   "property": "C16",
   "status": "proved",
   "theorems": [
    "PyBBN.c16_exact_priors",
    "PyBBN.c16_get_posteriors"
   ],
   "note": "connected networks, every iteration order of the set-based steps"
  },
  {
   "property": "C17",
   "status": "partial",
   "theorems": [
    "PyBBN.c17_false",
    "PyBBN.c17_disconnected_partial",
    "PyBBN.c17_history_partial",
    "PyBBN.c17_stays_local",
    "PyBBN.c17_near_law",
    "PyBBN.c17_far_law"
   ],
   "note": "The code violates the claim for components other than the one of the first clique (c17_false). Proved: apply never fails on any network of positive weight, and is exact for the first clique's component and for single-clique components, also after every history of evidence operations (c17_history_partial). Every report on every network is given in closed form: nodes connected with the clique of the smallest id get the exact posterior of their component (c17_near_law); every other node gets the marginal of the CPTs and likelihoods of the nodes kept in the same clique (c17_far_law), so that it depends only on evidence about nodes that share a clique with it (c17_stays_local)."
  },
  {
   "property": "C18",
   "status": "partial",
   "theorems": [
    "PyBBN.c18_law",
    "PyBBN.c18_posteriors_exact_partial",
    "PyBBN.c18_false"
   ],
   "note": "c18_law gives the exact law for every history of evidence about nodes and values of a connected network; c18_posteriors_exact_partial: posteriors are exact for the stored likelihoods if no virtual evidence is ambiguous (exactly one likelihood 1 next to one strictly between 0 and 1). Missing part is false of the code: c18_false."
  },
  {
   "property": "C19",
   "status": "proved",
   "theorems": [
    "PyBBN.c19_calibrated"
   ],
   "note": "All connected networks, all histories (also failing operations): every clique/separation-set table is the joint weight for the likelihoods of the last propagation; neighbours agree."
  },
  {
   "property": "C20",
   "status": "proved",
   "theorems": [
    "PyBBN.c20_order_independent",
    "PyBBN.c20_apply"
   ],
   "note": "all networks (connected or not), all histories and pairs of iteration orders; posteriors and exceptions, and whether apply succeeds"
  },
  {
   "property": "C21",
   "status": "partial",
   "theorems": [
    "PyBBN.c21_distributions_partial",
    "PyBBN.c21_false",
    "PyBBN.c21_any_network"
   ],
   "note": "All networks, connected or not, all histories: no exception, non-negative, sums to 1 or all 0 (c21_any_network). Connected networks: for unambiguous evidence decided by the probability of the stored evidence. For ambiguous virtual evidence the claim is false of the code: c21_false."
  },
  {
   "property": "C22",
   "status": "proved",
   "theorems": [
    "PyBBN.c22_validate",
    "PyBBN.c22_shapes",
    "PyBBN.c22_empty"
   ],
   "note": "All nodes with at least one value and all likelihood maps over their values; empty domains in c22_empty."
  },
  {
   "property": "C23",
   "status": "proved",
   "theorems": [
    "PyBBN.c23_toggle"
   ],
   "note": "All networks with usable CPTs, all histories incl. failing operations; exact posteriors afterwards for connected networks and nodes with at least two values."
  },
  {
   "property": "C24",
   "status": "partial",
   "theorems": [
    "PyBBN.c24_unobserve_all_partial",
    "PyBBN.c24_false"
   ],
   "note": "All networks (connected or not), all histories of evidence about nodes and values of the network. With an earlier update that failed half-way the claim is false of the code: c24_false."
  },
  {
   "property": "C25",
   "status": "proved",
   "theorems": [
    "PyBBN.c25_latest"
   ],
   "note": "All networks (connected or not), all pairs of histories of update/unobserve/unobserve_all calls without virtual evidence."
  },
  {
   "property": "C26",
   "status": "partial",
   "theorems": [
    "PyBBN.c26_never_update",
    "PyBBN.c26_never_missed_partial",
    "PyBBN.c26_exact",
    "PyBBN.c26_false"
   ],
   "note": "UPDATE is never answered (all inputs); a change is always propagated when stored and new likelihoods are unambiguous. Otherwise false of the code: c26_false. c26_exact gives the exact rule deciding which updates are propagated, for all histories."
  },
  {
   "property": "C27",
   "status": "partial",
   "theorems": [
    "PyBBN.c27_atomic_partial",
    "PyBBN.c27_raises_iff",
    "PyBBN.c27_exact",
    "PyBBN.c27_false"
   ],
   "note": "All histories, connected or not. c27_raises_iff: an update raises exactly when it names an unknown node or an unknown value. Unknown nodes and set_observation errors: no effect (c27_atomic_partial). Unknown values of known nodes: false of the code (c27_false); c27_exact says exactly what is stored and that no report changes."
  },
  {
   "property": "C28",
   "status": "proved",
   "theorems": [
    "PyBBN.c28_reapply",
    "PyBBN.c28_any_network"
   ],
   "note": "reapply after any session (evidence operations, earlier reapply calls); exact for the new CPTs, equals apply on the replaced network, later evidence exact, unknown ids ignored; c28_any_network: networks need not be connected, all later operations give the same reports and exceptions as a fresh tree"
  },
  {
   "property": "C29",
   "status": "partial",
   "theorems": [
    "PyBBN.c29_same_partial",
    "PyBBN.c29_apply_again_partial",
    "PyBBN.c29_leftover_partial",
    "PyBBN.c29_false"
   ],
   "note": "same network, connected or not, any iteration orders: repeated apply with evidence in between returns the very tree that unused objects give; edited networks: exact when the leftover parent clique still holds the family; false in general (stale parent.clique metadata): wrong marginals or KeyError"
  },
  {
   "property": "C30",
   "status": "partial",
   "theorems": [
    "PyBBN.c30_connected_partial",
    "PyBBN.c30_structure_partial",
    "PyBBN.c30_reloaded_partial",
    "PyBBN.c30_keeps_iff",
    "PyBBN.c30_lost_law",
    "PyBBN.c30_false"
   ],
   "note": "proved for connected networks and any session (evidence, reapply, earlier round trips), directly and through JSON; for disconnected networks without isolated cliques next to edges: structure, and every later operation gives the reports and exceptions of a fresh tree; false otherwise: from_dict loses cliques without edges. c30_keeps_iff says exactly when nodes are lost, c30_lost_law what is kept and what the remaining tree reports."
  },
  {
   "property": "C31",
   "status": "proved",
   "theorems": [
    "PyBBN.c31_dict_round_trip"
   ],
   "note": "for every sequence of add_node/add_edge calls, directly and through JSON keys"
  },
  {
   "property": "C32",
   "status": "proved",
   "theorems": [
    "PyBBN.c32_csv_round_trip",
    "PyBBN.c32_line_ends"
   ],
   "note": "Every network built with add_node/add_edge whose names and values are non-empty, without comma, bar, line end or surrounding blanks; every iteration order. str(float)/float(str) is a pair of functions with float(str(p)) = p and no separator characters (FloatText, instance fracText). Reading in text mode with universal newlines is modelled."
  },
  {
   "property": "C33",
   "status": "partial",
   "theorems": [
    "PyBBN.c33_inverse_cdf_partial",
    "PyBBN.c33_interval_widths",
    "PyBBN.c33_false",
    "PyBBN.c33_law",
    "PyBBN.c33_iff"
   ],
   "note": "Proved for parents in ascending id order (as LogicSampler passes them) whose values contain no comma; false otherwise: the keys of two rows can collide (c33_false). c33_law: with any values the row of the last parent values with the same key is sampled from; c33_iff: for a normalized CPT the property holds exactly if parent values with the same key have the same row."
  },
  {
   "property": "C34",
   "status": "partial",
   "theorems": [
    "PyBBN.c34_parents_first_partial",
    "PyBBN.c34_ascending_edges",
    "PyBBN.c34_permutation",
    "PyBBN.c34_false",
    "PyBBN.c34_works_iff"
   ],
   "note": "Always a permutation. Parents come first when the comparator is transitive, in particular when every edge goes from a smaller to a larger id; false otherwise (c34_false: edge 2->0 next to node 1, get_samples raises KeyError). CPython's sort is modelled for lists of fewer than 64 nodes; the positive theorems hold for any sort that sorts strict total orders. c34_works_iff: on networks with normalized CPTs, get_samples works exactly if parents come first, and raises KeyError on every draw otherwise."
  },
  {
   "property": "C35",
   "status": "proved",
   "theorems": [
    "PyBBN.c35_samples",
    "PyBBN.c35_foreign_id"
   ],
   "note": "For any sort, any draws; evidence on nodes of the network with values of theirs. With evidence about an id outside the network every returned sample lacks a node (c35_foreign_id)."
  },
  {
   "property": "C36",
   "status": "partial",
   "theorems": [
    "PyBBN.c36_rejection_partial",
    "PyBBN.c36_no_evidence",
    "PyBBN.c36_draws",
    "PyBBN.c36_false",
    "PyBBN.c36_exact",
    "PyBBN.c36_last_ignored",
    "PyBBN.c36_foreign_never"
   ],
   "note": "The full property is proved for topological orders and evidence that does not include the last visited node. It is false otherwise: a rejected draw is returned when all nodes not yet visited are evidence (c36_false: returned sample has probability 0). c36_exact says for any evidence on nodes of the network which draws are kept and what is recorded; c36_last_ignored: the value of evidence on the last visited node never influences which draws are kept."
  },
  {
   "property": "C37",
   "status": "partial",
   "theorems": [
    "PyBBN.c37_same_cpt_partial",
    "PyBBN.c37_sampler_rows",
    "PyBBN.c37_false",
    "PyBBN.c37_iff"
   ],
   "note": "The sampler reads the CPT with the parents in ascending id order (c37_sampler_rows), inference in order of connection; equal when parents were connected in ascending order, false otherwise (c37_false). c37_iff: for every CPT without equal rows (parents with two values or more) the two agree exactly if the parents were connected in ascending order."
  },
  {
   "property": "C38",
   "status": "partial",
   "theorems": [
    "PyBBN.c38_get_ace",
    "PyBBN.c38_causal_effect_partial",
    "PyBBN.c38_single_parent",
    "PyBBN.c38_unknown_x",
    "PyBBN.c38_unknown_y",
    "PyBBN.c38_false",
    "PyBBN.c38_separated_parents"
   ],
   "note": "Exact behaviour proved for connected networks (c38_get_ace): conditional probabilities averaged with the product of the parents' marginals; equals the interventional probability (truncated factorization) when the parents of x are independent, in particular for at most one parent and for parents between which do.py finds no active path (c38_separated_parents); KeyError cases. False in general: c38_false (dependent parents)."
  },
  {
   "property": "C39",
   "status": "proved",
   "theorems": [
    "PyBBN.c39_path_activity",
    "PyBBN.c39_edge",
    "PyBBN.c39_all_paths",
    "PyBBN.c39_get_paths"
   ],
   "note": "exact for evidence given as a set on paths with an inner node; edges treated separately; get_all_paths / get_paths / get_colliders exact"
  },
  {
   "property": "C40",
   "status": "partial",
   "theorems": [
    "PyBBN.c40_minimal_confounders_partial",
    "PyBBN.c40_false"
   ],
   "note": "false of the code (c40_false: may return a descendant of x, may open a collider); proved: never raises, blocks every backdoor path open without evidence, exact criterion for validity"
  },
  {
   "property": "C41",
   "status": "proved",
   "theorems": [
    "PyBBN.c41_all_confounders"
   ],
   "note": "exact characterisation of the returned set"
  },
  {
   "property": "C42",
   "status": "proved",
   "theorems": [
    "PyBBN.c42_conditional",
    "PyBBN.c42_errors",
    "PyBBN.c42_order",
    "PyBBN.c42_sequential",
    "PyBBN.c42_history",
    "PyBBN.c42_posDef",
    "PyBBN.c42_density",
    "PyBBN.c42_density_unique"
   ],
   "note": "Exact rational arithmetic; conditioning is specified by regression coefficients (Spec/Gaussian), and c42_density shows that this is conditioning in the sense of densities."
  },
  {
   "property": "C43",
   "status": "partial",
   "theorems": [
    "PyBBN.c43_exact",
    "PyBBN.c43_zero_mean_partial",
    "PyBBN.c43_false_prior",
    "PyBBN.c43_false_posterior",
    "PyBBN.c43_false_order",
    "PyBBN.c43_false_sequential"
   ],
   "note": "False of the code: means are reported with the wrong sign before any observation (c43_false_prior) and after one (c43_false_posterior), depend on the order of observations (c43_false_order), and one-at-a-time differs from at-once even for zero means (c43_false_sequential). c43_exact says what is reported; it is the conditional mean for variables of mean zero after one call."
  },
  {
   "property": "C44",
   "status": "proved",
   "theorems": [
    "PyBBN.c44_tables",
    "PyBBN.c44_exact",
    "PyBBN.c44_nothing_missing"
   ],
   "note": "tables, end-to-end posteriors and error cases of Factory.from_libpgm_discrete_*; the JSON text itself is parsed by json.loads, not modelled"
  },
  {
   "property": "C45",
   "status": "partial",
   "theorems": [
    "PyBBN.c45_network",
    "PyBBN.c45_tables_partial",
    "PyBBN.c45_exact_partial",
    "PyBBN.c45_law",
    "PyBBN.c45_false",
    "PyBBN.c45_iff"
   ],
   "note": "false of the code for parents not listed in ascending order (c45_false); proved for parents in ascending order, and the rows are distributions in all cases; c45_law says for parents in any order which relative frequency is read; c45_iff: if the relative frequencies differ for all parent values, the table gives them exactly if the parents are listed in ascending order"
  },
  {
   "property": "C46",
   "status": "proved",
   "theorems": [
    "PyBBN.c46_multi",
    "PyBBN.c46_finishes",
    "PyBBN.c46_finishes_surely",
    "PyBBN.c46_one_never_ends"
   ],
   "note": "For every list of raw draws, and with probability one for uniform independent draws. For n = 1 (and max_iter > 0) the pair of distinct nodes is never found and the call does not return (c46_one_never_ends); n <= 0 raises ValueError."
  },
  {
   "property": "C47",
   "status": "proved",
   "theorems": [
    "PyBBN.c47_singly",
    "PyBBN.c47_finishes",
    "PyBBN.c47_finishes_surely",
    "PyBBN.c46_one_never_ends"
   ],
   "note": "For every list of raw draws, and with probability one for uniform independent draws; the non-termination for n = 1 is c46_one_never_ends."
  },
  {
   "property": "C48",
   "status": "proved",
   "theorems": [
    "PyBBN.c48_multi",
    "PyBBN.c48_singly"
   ],
   "note": "The Dirichlet sampler is any function returning positive vectors that sum to one. Also: positive entries, total weight one, exact inference succeeds with exact priors."
  },
  {
   "property": "C49",
   "status": "proved",
   "theorems": [
    "PyBBN.c49_polynomial",
    "PyBBN.c49_append",
    "PyBBN.c49_bounds",
    "PyBBN.c49_collisions"
   ],
   "note": "Python strings as lists of code points."
  },
  {
   "property": "C50",
   "status": "partial",
   "theorems": [
    "PyBBN.c50_sample_law",
    "PyBBN.c50_sample_probability_partial",
    "PyBBN.c50_false",
    "PyBBN.c50_iff"
   ],
   "note": "c50_sample_law: for every topological order the probability of a sample is the product of the CPT entries read with the parents in ascending id order. Equal to the joint probability when parents were connected in ascending order (partial theorem); false of the code otherwise (c50_false). c50_iff: for positive CPTs without equal rows the samples have their joint probabilities exactly if all parents were connected in ascending order."
  },
  {
   "property": "C51",
   "status": "proved",
   "theorems": [
    "PyBBN.c51_i2n",
    "PyBBN.c51_n2i",
    "PyBBN.c51_inverse"
   ],
   "note": "i2n exact; n2i gives the last node with that name; inverse when names are distinct."
  },
  {
   "property": "C52",
   "status": "proved",
   "theorems": [
    "PyBBN.c52_total_one",
    "PyBBN.c52_prior"
   ],
   "note": "Needs no cycle among the requested edges (Bbn does not enforce it, C03) and every CPT row to sum to one."
  },
  {
   "property": "C53",
   "status": "proved",
   "theorems": [
    "PyBBN.c53_local_markov"
   ],
   "note": "Connected networks; evidence elsewhere on non-descendants is arbitrary (unambiguous), including virtual."
  },
  {
   "property": "C54",
   "status": "proved",
   "theorems": [
    "PyBBN.c54_greedy",
    "PyBBN.c54_greedy_unique",
    "PyBBN.c54_join_tree"
   ],
   "note": "the cliques are those of the greedy elimination spec, which is deterministic; hence the join tree does not depend on the iteration order either"
  },
  {
   "property": "C55",
   "status": "partial",
   "theorems": [
    "PyBBN.c55_minimal_mediators_partial",
    "PyBBN.c55_false"
   ],
   "note": "false of the code (c55_false: mediators that are colliders on another path are dropped); the rest proved"
  },
  {
   "property": "C56",
   "status": "proved",
   "theorems": [
    "PyBBN.c56_separators"
   ],
   "note": ""
  },
  {
   "property": "C57",
   "status": "partial",
   "theorems": [
    "PyBBN.c57_false"
   ],
   "note": "False of the code: to_json raises TypeError on every generated network, because the cardinality in 'shape' is a numpy.int64. There is no network for which the property holds, so nothing is kept as a positive part."
  },
  {
   "property": "C58",
   "status": "proved",
   "theorems": [
    "PyBBN.c58_drawing",
    "PyBBN.c58_generated"
   ],
   "note": ""
  },
  {
   "property": "C59",
   "status": "proved",
   "theorems": [
    "PyBBN.c59_marginals"
   ],
   "note": ""
  },
  {
   "property": "C60",
   "status": "partial",
   "theorems": [
    "PyBBN.c60_accepts_partial",
    "PyBBN.c60_nothing_ignored",
    "PyBBN.c60_false"
   ],
   "note": "false of the code: cells that name columns in a cycle make from_data raise (c60_false); exact characterisation proved"
  },
  {
   "property": "C61",
   "status": "partial",
   "theorems": [
    "PyBBN.c61_copy_partial",
    "PyBBN.c61_never_updated",
    "PyBBN.c61_false"
   ],
   "note": "the copy has the same posteriors and, once set_listener is called, equals the original on every history; without it posteriors never change (the copy drops the listener, c61_false)"
  },
  {
   "property": "C62",
   "status": "proved",
   "theorems": [
    "PyBBN.c62_nx_graph"
   ],
   "note": "for all sequences of calls"
  },
  {
   "property": "C63",
   "status": "proved",
   "theorems": [
    "PyBBN.c63_d_separation"
   ],
   "note": "soundness of d-separation for the posteriors computed by the join tree"
  },
  {
   "property": "C64",
   "status": "proved",
   "theorems": [
    "PyBBN.c64_backdoor"
   ],
   "note": "criterion decided by do.py's own functions on to_nx_graph; effect defined by truncated factorization"
  },
  {
   "property": "C65",
   "status": "partial",
   "theorems": [
    "PyBBN.c65_all_confounders_partial",
    "PyBBN.c65_iff",
    "PyBBN.c65_false"
   ],
   "note": "False of the code (c65_false): a confounder that is a collider on another closed backdoor path is left out. Proved when colliders of closed backdoor paths lead to no candidate; c65_iff says exactly for which graphs the returned set is valid."
  },
  {
   "property": "C66",
   "status": "partial",
   "theorems": [
    "PyBBN.c66_remove_isolated_partial",
    "PyBBN.c66_remove_connected_fails",
    "PyBBN.c66_remove_parent_fails",
    "PyBBN.c66_remove_connected_unreadable",
    "PyBBN.c66_false"
   ],
   "note": "Holds for isolated nodes (the removed network is literally the one built without the node). False for every node with an edge: apply always raises, and the dictionary cannot be read back."
  },
  {
   "property": "C67",
   "status": "partial",
   "theorems": [
    "PyBBN.c67_key",
    "PyBBN.c67_to_dict_partial",
    "PyBBN.c67_tables_partial",
    "PyBBN.c67_node_potentials",
    "PyBBN.c67_posteriors_partial",
    "PyBBN.c67_false"
   ],
   "note": "Keys depend only on the assignment (c67_key); node potentials: full for any join tree and any values (c67_node_potentials), combined with C18 (c67_posteriors_partial); tables: one item per row when no value contains a bar (c67_to_dict_partial, c67_tables_partial). False for tables with bars in the values (c67_false)."
  },
  {
   "property": "C68",
   "status": "partial",
   "theorems": [
    "PyBBN.c68_to_dne_partial",
    "PyBBN.c68_joint_partial",
    "PyBBN.c68_false"
   ],
   "note": "Proved for names and values without separators (c68_to_dne_partial; joint distribution: c68_joint_partial). False in general: nothing is quoted, two networks with different values give the same text (c68_false)."
  },
  {
   "property": "C69",
   "status": "partial",
   "theorems": [
    "PyBBN.c69_alone_partial",
    "PyBBN.c69_posteriors_partial",
    "PyBBN.c69_edits_partial",
    "PyBBN.c69_false"
   ],
   "note": "any interleaving of apply/reapply/evidence on one unedited network: every tree equals the tree alone; edits with evidence leave the posteriors of existing trees alone; false when apply or reapply follows an edit"
  },
  {
   "property": "C70",
   "status": "proved",
   "theorems": [
    "PyBBN.c70_apply_errors",
    "PyBBN.c70_floats",
    "PyBBN.c70_posteriors",
    "PyBBN.c70_orders",
    "PyBBN.c70_near",
    "PyBBN.c70_binary",
    "PyBBN.c70_orders_differ"
   ],
   "note": "Standard model of floating point (relative error at most u per operation, no overflow/underflow; any summation within (1\u00b1u)^length). The decisions of evidence calls (validation, comparison) are taken exactly. c70_orders_differ: in double precision results depend on set iteration order in the last bits."
  },
  {
   "property": "C71",
   "status": "partial",
   "theorems": [
    "PyBBN.c71_total_probability_partial",
    "PyBBN.c71_bayes_partial",
    "PyBBN.c71_false"
   ],
   "note": "the law of total probability and Bayes' rule after histories of unambiguous evidence; after ambiguous virtual evidence the code violates them (c71_false, stale tables as in c18_false)"
  },
  {
   "property": "C72",
   "status": "proved",
   "theorems": [
    "PyBBN.c72_same_network",
    "PyBBN.c72_reordered"
   ],
   "note": "for networks related by any renaming (SameNet) and for reordered calls (SameCalls); all histories of evidence about nodes of the network, ambiguous or not"
  },
  {
   "property": "C73",
   "status": "proved",
   "theorems": [
    "PyBBN.c73_unobserved_effect",
    "PyBBN.c73_add_effect"
   ],
   "note": "for any network extended by one childless node (Extends), and for the calls that do so"
  },
  {
   "property": "C74",
   "status": "proved",
   "theorems": [
    "PyBBN.c74_virtual_evidence"
   ],
   "note": "likelihoods up to a factor; the history before may contain ambiguous evidence"
  },
  {
   "property": "C75",
   "status": "proved",
   "theorems": [
    "PyBBN.c75_ancestors",
    "PyBBN.c75_reapply"
   ],
   "note": "Both for two networks given to apply and for new CPTs given to reapply; examples show that rows outside the set must sum to one."
  },
  {
   "property": "C76",
   "status": "partial",
   "theorems": [
    "PyBBN.c76_nearby_partial",
    "PyBBN.c76_table",
    "PyBBN.c76_zero",
    "PyBBN.c76_double",
    "PyBBN.c76_false"
   ],
   "note": "Proved for random numbers below (1-u)^N (N: largest number of values); c76_false shows an IndexError for a larger one in doubles."
  },
  {
   "property": "C77",
   "status": "partial",
   "theorems": [
    "PyBBN.c77_ratios_partial",
    "PyBBN.c77_virtual",
    "PyBBN.c77_false"
   ],
   "note": "Proved for histories without ambiguous virtual evidence, and for one scaled piece of evidence about a node without evidence after any history; false otherwise (c77_false)."
  },
  {
   "property": "C78",
   "status": "partial",
   "theorems": [
    "PyBBN.c78_ruled_out_partial",
    "PyBBN.c78_observed_partial",
    "PyBBN.c78_stays_impossible_partial",
    "PyBBN.c78_false"
   ],
   "note": "Proved for histories without ambiguous virtual evidence; false otherwise (c78_false)."
  },
  {
   "property": "C79",
   "status": "partial",
   "theorems": [
    "PyBBN.c79_joint",
    "PyBBN.c79_chain_partial",
    "PyBBN.c79_false"
   ],
   "note": "Proved in full starting without evidence (c79_joint), and after histories without ambiguous virtual evidence (c79_chain_partial); false after ambiguous evidence (c79_false)."
  },
  {
   "property": "C80",
   "status": "proved",
   "theorems": [
    "PyBBN.c80_same_joint",
    "PyBBN.c80_converse"
   ],
   "note": "For all histories, both directions."
  },
  {
   "property": "C81",
   "status": "proved",
   "theorems": [
    "PyBBN.c81_file",
    "PyBBN.c81_same_network"
   ],
   "note": "both files as texts; random draws as an arbitrary list of naturals; floats exact, float text any that reads back"
  },
  {
   "property": "C82",
   "status": "proved",
   "theorems": [
    "PyBBN.c82_fraction",
    "PyBBN.c82_between"
   ],
   "note": "all proper evidence, including ambiguous virtual evidence"
  },
  {
   "property": "C83",
   "status": "partial",
   "theorems": [
    "PyBBN.c83_by_id",
    "PyBBN.c83_by_name_partial",
    "PyBBN.c83_posteriors_partial",
    "PyBBN.c83_false"
   ],
   "note": "all networks, connected or not; lookup by id in full; by name and get_posteriors for names that only one node has (and: some node of that name otherwise); false for nodes that share a name (c83_false)"
  },
  {
   "property": "C84",
   "status": "partial",
   "theorems": [
    "PyBBN.c84_frequency_partial",
    "PyBBN.c84_returns_partial",
    "PyBBN.c84_false"
   ],
   "note": "Proved for parents connected in ascending order of ids, topological visiting order and observations that do not include the last visited node. False otherwise: c84_false (evidence on the last node), c50_false (order of the parents)."
  },
  {
   "property": "C85",
   "status": "proved",
   "theorems": [
    "PyBBN.c85_refines",
    "PyBBN.c85_deep_independent",
    "PyBBN.c85_shallow_alias"
   ],
   "note": "every program of Bbn(), copy, deepcopy and calls shows what the value-level specification says; the two corollaries spell out deep and shallow copies"
  },
  {
   "property": "C86",
   "status": "proved",
   "theorems": [
    "PyBBN.c86_number",
    "PyBBN.c86_monotone",
    "PyBBN.c86_exact",
    "PyBBN.c86_table",
    "PyBBN.c86_report",
    "PyBBN.c86_sum"
   ],
   "note": "numbers, tables, and reports after any history on connected networks; sum of the printed numbers"
  },
  {
   "property": "C87",
   "status": "partial",
   "theorems": [
    "PyBBN.c87_network_partial",
    "PyBBN.c87_cliques",
    "PyBBN.c87_sid",
    "PyBBN.c87_false",
    "PyBBN.c87_sepsets_false"
   ],
   "note": "proved when names contain no bar or line break and values no bar, comma or line break; false otherwise (no quoting); printed cliques do not depend on iteration orders, printed separation sets do"
  },
  {
   "property": "C88",
   "status": "proved",
   "theorems": [
    "PyBBN.c88_chordal",
    "PyBBN.c88_maximal_cliques",
    "PyBBN.c88_no_fill"
   ],
   "note": "for every call sequence, i.e. every network"
  },
  {
   "property": "C89",
   "status": "proved",
   "theorems": [
    "PyBBN.c89_no_fill",
    "PyBBN.c89_families",
    "PyBBN.c89_tables",
    "PyBBN.c89_generated"
   ],
   "note": ""
  },
  {
   "property": "C90",
   "status": "partial",
   "theorems": [
    "PyBBN.c90_blanket_partial",
    "PyBBN.c90_screened_partial",
    "PyBBN.c90_false"
   ],
   "note": "proved for evidence without ambiguous virtual evidence; false with it (c90_false)"
  },
  {
   "property": "C91",
   "status": "partial",
   "theorems": [
    "PyBBN.c91_odds_partial",
    "PyBBN.c91_raise_partial",
    "PyBBN.c91_false"
   ],
   "note": "proved for evidence without ambiguous virtual evidence; false with it (c91_false)"
  },
  {
   "property": "C92",
   "status": "proved",
   "theorems": [
    "PyBBN.c92_flattened"
   ],
   "note": "all sessions of all networks"
  },
  {
   "property": "C93",
   "status": "partial",
   "theorems": [
    "PyBBN.c93_enough_partial",
    "PyBBN.c93_chain",
    "PyBBN.c93_false",
    "PyBBN.c93_dag_partial",
    "PyBBN.c93_dag_false"
   ],
   "note": "false of the code: every long enough chain raises RecursionError (c93_chain, c93_false, c93_dag_false); proved: a limited run raises RecursionError or agrees with the unlimited one, and a limit of twice the number of nodes is enough"
  },
  {
   "property": "C94",
   "status": "partial",
   "theorems": [
    "PyBBN.c94_uniform_partial",
    "PyBBN.c94_false",
    "PyBBN.c46_finishes_surely"
   ],
   "note": "true for three nodes or more; with two nodes one of the two structures is never generated; runs finish with probability one"
  },
  {
   "property": "C95",
   "status": "partial",
   "theorems": [
    "PyBBN.c95_star_partial",
    "PyBBN.c95_others_vanish",
    "PyBBN.c95_false",
    "PyBBN.c47_finishes_surely"
   ],
   "note": "false for three nodes or more: proved that the generator is absorbed in stars with probability tending to one and every other structure vanishes; runs finish with probability one"
  },
  {
   "property": "C96",
   "status": "partial",
   "theorems": [
    "PyBBN.c96_alphas",
    "PyBBN.c96_numValues_partial",
    "PyBBN.c96_false",
    "PyBBN.c96_one_exceeded"
   ],
   "note": "hyperparameters uniform and independent; numbers of values independent but two is twice as likely as any other number; max_values = 1 is exceeded"
  },
  {
   "property": "C97",
   "status": "partial",
   "theorems": [
    "PyBBN.c97_estimate_partial",
    "PyBBN.c97_law_partial",
    "PyBBN.c97_returns_surely",
    "PyBBN.c97_estimate_exact",
    "PyBBN.c97_false"
   ],
   "note": "proved for parents connected in ascending order, topological visiting order and observations that do not include the node visited last; c97_estimate_exact says what the estimates converge to for any observations; false otherwise (c97_false, c50_false)"
  },
  {
   "property": "C98",
   "status": "partial",
   "theorems": [
    "PyBBN.c98_relearn_partial",
    "PyBBN.c98_false"
   ],
   "note": "proved for parents in ascending order of ids and names and values that do not name columns in a cycle; c98_false: otherwise from_data may fail with probability one"
  },
  {
   "property": "C99",
   "status": "partial",
   "theorems": [
    "PyBBN.c99_samples_partial",
    "PyBBN.c99_unobserved",
    "PyBBN.c99_false"
   ],
   "note": "proved for variables with a positive reported variance, which with a positive definite covariance matrix are all that have not been observed; observed variables are sampled with standard deviation 0.01 instead of 0 (c99_false)"
  },
  {
   "property": "C100",
   "status": "partial",
   "theorems": [
    "PyBBN.c100_mixed_partial",
    "PyBBN.c100_directed",
    "PyBBN.c100_simple",
    "PyBBN.c100_parents_false",
    "PyBBN.c100_order_false",
    "PyBBN.c100_semi_false"
   ],
   "note": "get_parents and get_out_nodes treat undirected neighbours as parents, and acceptance of undirected edges depends on the order of their ends (negations proved); the exact behaviour is proved for all sequences of calls, and the documented one when only directed edges are added"
  },
  {
   "property": "C101",
   "status": "partial",
   "theorems": [
    "PyBBN.c101_law",
    "PyBBN.c101_event_partial",
    "PyBBN.c101_estimate_partial",
    "PyBBN.c101_exact_false"
   ],
   "note": "any CPT entries and any M; proved for parents connected in ascending order of ids, topological visiting order and observations that do not include the node visited last (otherwise false: c97_false, c50_false); c101_exact_false: the error is not zero"
  },
  {
   "property": "C102",
   "status": "partial",
   "theorems": [
    "PyBBN.c102_program_partial",
    "PyBBN.c102_reports_partial",
    "PyBBN.c102_false",
    "PyBBN.c102_toggle_false"
   ],
   "note": "All programs whose evidence is about nodes and values of the network; values are added to a piece of evidence after its use only if that is reusable (for virtual and unobserve evidence always; findings with a positive likelihood; observations with likelihoods 1 and 0), and set_observation gets plain observations. False otherwise: c102_false, c102_toggle_false."
  },
  {
   "property": "C103",
   "status": "proved",
   "theorems": [
    "PyBBN.c103_active_path",
    "PyBBN.c103_exact"
   ],
   "note": "Both directions; the networks found by c103_active_path have one common list of values for all nodes, as long as needed."
  },
  {
   "property": "C104",
   "status": "partial",
   "theorems": [
    "PyBBN.c104_maximum_likelihood_partial",
    "PyBBN.c104_false"
   ],
   "note": "false of the code for parents not listed in ascending order (c104_false); proved for parents in ascending order, with the case of equality"
  },
  {
   "property": "C105",
   "status": "proved",
   "theorems": [
    "PyBBN.c105_close"
   ],
   "note": "also for ambiguous virtual evidence: what is propagated does not depend on the CPTs"
  },
  {
   "property": "C106",
   "status": "proved",
   "theorems": [
    "PyBBN.c106_between"
   ],
   "note": ""
  },
  {
   "property": "C107",
   "status": "proved",
   "theorems": [
    "PyBBN.c107_error",
    "PyBBN.c107_distribution",
    "PyBBN.c107_independent"
   ],
   "note": "bound attained in the network of c38_false"
  },
  {
   "property": "C108",
   "status": "proved",
   "theorems": [
    "PyBBN.c108_average",
    "PyBBN.c108_single",
    "PyBBN.c108_fades"
   ],
   "note": "evidence histories are those of C18; the contraction needs reports of both histories to be possible (some report positive)"
  },
  {
   "property": "C109",
   "status": "partial",
   "theorems": [
    "PyBBN.c109_close_partial",
    "PyBBN.c109_false"
   ],
   "note": "Proved for all pairs of unambiguous histories; for ambiguous virtual evidence it fails (c109_false)."
  },
  {
   "property": "C110",
   "status": "partial",
   "theorems": [
    "PyBBN.c110_copy_partial",
    "PyBBN.c110_chain",
    "PyBBN.c110_false"
   ],
   "note": "Full statement (some limit suffices for every network on which apply works) is false of the code (c110_chain, c110_false: long chains whose ids run against the arrows raise RecursionError). Proved: after any evidence history deepcopy and reapply either raise RecursionError or do what they do without a limit, and the latter if three nested copies fit per network node."
  },
  {
   "property": "C111",
   "status": "partial",
   "theorems": [
    "PyBBN.c111_samples_partial",
    "PyBBN.c111_singly",
    "PyBBN.c111_false",
    "PyBBN.c111_three"
   ],
   "note": "Full statement is false of the code (c111_false: for n >= 3 the sampler raises KeyError on every draw for structures that generate_multi_bbn returns with non-vanishing probability; c111_three: exactly 1/9 in the limit for three nodes, and the other 8/9 are sampled correctly). Proved: conversion and construction of the sampler never fail, sampling is correct when the order lists parents first and raises KeyError on every draw otherwise; generate_singly_bbn gives correctly sampled networks with probability tending to one."
  },
  {
   "property": "C112",
   "status": "partial",
   "theorems": [
    "PyBBN.c112_sizes_partial",
    "PyBBN.c112_ieee",
    "PyBBN.c112_false"
   ],
   "note": "Full statement is false of the code in double precision (c112_false: underflow in clique tables gives reports [1,0] instead of [3/5,2/5], or all zeros, without an exception). Proved: exceptions never differ from exact arithmetic, and every report whose count of roundings and orders of magnitude (computed without looking at more than the magnitudes of the inputs) stays within the exponent range is exact up to the counted roundings; c112_ieee: IEEE rounding with subnormals satisfies the hypotheses (range 2^-1022 for doubles)."
  },
  {
   "property": "C113",
   "status": "proved",
   "theorems": [
    "PyBBN.c113_counts",
    "PyBBN.c113_errors",
    "PyBBN.c113_no_underflow"
   ],
   "note": "Counts of roundings on every network and history (c113_counts); error of each reported number and exact zeros on connected networks (c113_errors); explicit condition for floats with bounded exponents (c113_no_underflow). The bound is generous (1665 where 155 roundings occur)."
  },
  {
   "property": "C114",
   "status": "proved",
   "theorems": [
    "PyBBN.c114_reports",
    "PyBBN.c114_current",
    "PyBBN.c114_unobserve_all"
   ],
   "note": "Over every arithmetic (any rounding), for one iteration order per process. c114_reports is the form for all proper evidence (likelihoods last seen by the tables); c114_current the form for unambiguous evidence (likelihoods now in force); different iteration orders do change the last bits (c70_orders_differ)."
  },
  {
   "property": "C115",
   "status": "partial",
   "theorems": [
    "PyBBN.c115_confounders_partial",
    "PyBBN.c115_mediators_partial",
    "PyBBN.c115_false"
   ],
   "note": "False of the code (c115_false: redundant nodes, and answers that depend on the iteration order). Proved: the returned confounders block the active backdoor paths with at most one node per path; when no two of the paths share an inner node the set is minimal and no smaller set will do; the same for mediators."
  },
  {
   "property": "C116",
   "status": "partial",
   "theorems": [
    "PyBBN.c116_jeffrey_partial",
    "PyBBN.c116_set_distribution_partial",
    "PyBBN.c116_false"
   ],
   "note": "Connected networks, unambiguous earlier evidence; c116_false shows the claim fails of the code after ambiguous evidence."
  },
  {
   "property": "C117",
   "status": "proved",
   "theorems": [
    "PyBBN.c117_surgery",
    "PyBBN.c117_do",
    "PyBBN.c117_ace"
   ],
   "note": "For every CPT of the node in the rebuilt network; c117_do for no other evidence, c117_ace for get_ace."
  },
  {
   "property": "C118",
   "status": "partial",
   "theorems": [
    "PyBBN.c118_edges",
    "PyBBN.c118_neighbors",
    "PyBBN.c118_exact_partial",
    "PyBBN.c118_false"
   ],
   "note": "Each requested pair is listed once, in order of first request and with the printed form stated, with removals allowed; neighbors are always listed. That only neighbors are listed is proved for histories without remove_node and false otherwise (c118_false), because remove_node does not touch the edges."
  },
  {
   "property": "C119",
   "status": "proved",
   "theorems": [
    "PyBBN.c119_mediated",
    "PyBBN.c119_frontdoor"
   ],
   "note": "c119_mediated: the effect of x on y is the average over m of the effects of m; c119_frontdoor: it equals the double average of reports of the join tree. Example: U->X, U->Y, X->M->Y, where the effect 9/100 differs from the conditional probability 27/250."
  },
  {
   "property": "C120",
   "status": "proved",
   "theorems": [
    "PyBBN.c120_downstream",
    "PyBBN.c120_experiment"
   ],
   "note": "c120_downstream: the report is the probability when x is set; c120_experiment: the two networks report the same. The examples show that observing x instead changes the report of a non-descendant, and that the claim fails for a descendant."
  },
  {
   "property": "C121",
   "status": "proved",
   "theorems": [
    "PyBBN.c121_variance",
    "PyBBN.c121_uncorrelated",
    "PyBBN.c121_values"
   ],
   "note": "c121_variance: bounds and equality case; c121_uncorrelated: mean and variance unchanged; c121_values: only the set of observed variables matters. Exact rational arithmetic."
  },
  {
   "property": "C122",
   "status": "proved",
   "theorems": [
    "PyBBN.c122_ignored",
    "PyBBN.c122_value",
    "PyBBN.c122_strict",
    "PyBBN.c122_guess"
   ],
   "note": "for unambiguous evidence; with ambiguous virtual evidence C71 and hence this claim fails (c71_false)"
  },
  {
   "property": "C123",
   "status": "proved",
   "theorems": [
    "PyBBN.c123_messages",
    "PyBBN.c123_connected",
    "PyBBN.c123_session",
    "PyBBN.propagateT_fst"
   ],
   "note": ""
  },
  {
   "property": "C124",
   "status": "proved",
   "theorems": [
    "PyBBN.c124_tables",
    "PyBBN.c124_rename",
    "PyBBN.c124_indefinite"
   ],
   "note": "Reports of two networks that differ in names and order of values (and order of parents) agree; c124_indefinite shows why observations need a positive likelihood when the order changes."
  },
  {
   "property": "C125",
   "status": "proved",
   "theorems": [
    "PyBBN.c125_uncertainty",
    "PyBBN.c125_entropy",
    "PyBBN.c125_symmetric"
   ],
   "note": "Entropy and every strictly concave measure (c125_uncertainty), case of equality, symmetry of the mutual information. Unambiguous earlier evidence, as in C71."
  },
  {
   "property": "C126",
   "status": "proved",
   "theorems": [
    "PyBBN.c126_exact",
    "PyBBN.c126_same",
    "PyBBN.c126_possible"
   ],
   "note": "the way to use the library for networks in several pieces, where C17 fails"
  },
  {
   "property": "C127",
   "status": "proved",
   "theorems": [
    "PyBBN.c127_uncertainty",
    "PyBBN.c127_entropy",
    "PyBBN.c127_value",
    "PyBBN.c127_dsep"
   ],
   "note": ""
  },
  {
   "property": "C128",
   "status": "proved",
   "theorems": [
    "PyBBN.c128_surgery",
    "PyBBN.c128_do",
    "PyBBN.c128_possible"
   ],
   "note": "extends C117"
  },
  {
   "property": "C129",
   "status": "proved",
   "theorems": [
    "PyBBN.c129_usable",
    "PyBBN.c129_priors",
    "PyBBN.c129_simple"
   ],
   "note": "Decimals are read as the rationals they write down (C70 and C98 are about rounding)."
  },
  {
   "property": "C130",
   "status": "proved",
   "theorems": [
    "PyBBN.c130_loads",
    "PyBBN.c130_ascii",
    "PyBBN.c130_file"
   ],
   "note": "NaN, infinities and strings with lone surrogates are not modelled. c130_loads is the round trip for all JSON values, with and without indentation."
  },
  {
   "property": "C131",
   "status": "partial",
   "theorems": [
    "PyBBN.c131_json_partial",
    "PyBBN.c131_tail_partial",
    "PyBBN.c131_csv_false"
   ],
   "note": "JSON: proved (ValueError at every crash point, and for every tail that is not blank). False of CSV files: a file cut off before the edges is read as a network without edges, one cut off within a number as a network with another number (c131_csv_false)."
  },
  {
   "property": "C132",
   "status": "proved",
   "theorems": [
    "PyBBN.c132_entries",
    "PyBBN.c132_absorb"
   ],
   "note": "c132_absorb uses rowsWith (the rows of the CPT in which the node has the observed value). Both networks must be connected (C17; C126 shows how to connect them)."
  },
  {
   "property": "C133",
   "status": "proved",
   "theorems": [
    "PyBBN.c133_text",
    "PyBBN.c133_cut"
   ],
   "note": "Disconnected networks: see C30 (cliques without edges are lost)."
  },
  {
   "property": "C134",
   "status": "proved",
   "theorems": [
    "PyBBN.c134_file",
    "PyBBN.c134_reports",
    "PyBBN.c134_sorted"
   ],
   "note": "The order of the list of edges is part of the document: it determines the order of the parents."
  },
  {
   "property": "C135",
   "status": "proved",
   "theorems": [
    "PyBBN.c135_text",
    "PyBBN.c135_sorted"
   ],
   "note": "connected networks, as C30 (false of disconnected ones, `c30_false`); floats through the abstract `repr`/`float` pair of C130"
  },
  {
   "property": "C136",
   "status": "proved",
   "theorems": [
    "PyBBN.c136_tables",
    "PyBBN.c136_exact",
    "PyBBN.c136_only",
    "PyBBN.c136_cut"
   ],
   "note": "values and names are strings and numbers are numbers (Python would accept other JSON values in their place); floats through the abstract `repr`/`float` pair of C130"
  },
  {
   "property": "C137",
   "status": "proved",
   "theorems": [
    "PyBBN.c137_empty_parents"
   ],
   "note": "Any set of empty lists for ids without incoming edges, in any order and layout. Instance: docs/source/code/simple-join-tree.json read character by character (Props/DocFiles.lean)."
  },
  {
   "property": "C138",
   "status": "proved",
   "theorems": [
    "PyBBN.c138_lines",
    "PyBBN.c138_reports",
    "PyBBN.c138_exact",
    "PyBBN.c138_exchange_false"
   ],
   "note": "c138_lines: same nodes, edges and ordered parents; c138_reports: same answers; c138_exact: no line is passed over and nothing is made up. The condition on edges into one node is needed: c138_exchange_false."
  }
 ]
}