{"id": "C01", "title": "A Dag can never contain a directed cycle", "statement": "Starting from an empty Dag, after any sequence of add_node, add_edge and remove_node calls, following edges from parent to child never leads back to the starting node (in particular there are no self loops).", "quantifier": "all finite sequences of add_node/add_edge/remove_node calls with arbitrary node ids and edge types, and every iteration order of the child sets", "why_tests_cant": "cycles need particular orders of insertion; the number of insertion orders is unbounded", "anchors": ["pybbn/graph/dag.py:Dag.__shouldadd__", "pybbn/graph/dag.py:PathDetector", "pybbn/graph/graph.py:Graph.add_edge"]}
{"id": "C02", "title": "Dag.add_edge rejects exactly the edges that would break the DAG", "statement": "Dag.add_edge(e) inserts the edge if and only if it is directed, is not a self loop, is not already present in either direction, and its child cannot already reach its parent; the reachability search always terminates and is exact.", "quantifier": "all reachable Dag states, all edges, every iteration order of the child sets", "why_tests_cant": "soundness and completeness of a graph search over all graphs cannot be sampled", "anchors": ["pybbn/graph/dag.py:Dag.__shouldadd__", "pybbn/graph/dag.py:PathDetector.__find__"]}
{"id": "C03", "title": "A Bbn is a directed acyclic graph", "statement": "Starting from an empty Bbn, after any sequence of add_node and add_edge calls with BbnNode endpoints, the network has no directed cycle.", "quantifier": "all finite sequences of add_node/add_edge calls on a Bbn", "why_tests_cant": "unit tests only build well formed networks", "anchors": ["pybbn/graph/dag.py:Bbn.__shouldadd__", "pybbn/graph/dag.py:Dag"]}
{"id": "C04", "title": "Graph bookkeeping stays consistent", "statement": "After any sequence of add_node, add_edge and remove_node calls on a Graph/Ug, the neighbor relation is symmetric and irreflexive, only mentions nodes of the graph, and edge_exists(a,b) holds exactly when a and b are neighbors; for an undirected graph re-adding an edge in either direction changes nothing.", "quantifier": "all finite operation sequences on Graph/Ug", "why_tests_cant": "the invariant has to survive every interleaving of insertions and removals", "anchors": ["pybbn/graph/graph.py:Graph.add_edge", "pybbn/graph/graph.py:Graph.remove_node", "pybbn/graph/graph.py:Graph.edge_exists"]}
{"id": "C05", "title": "remove_node removes the node's edges", "statement": "After remove_node(id), get_edges() contains no edge with endpoint id, get_nodes() does not contain id and no node lists id as neighbor.", "quantifier": "all graphs and ids", "why_tests_cant": "needs all graphs; existing tests look at a single graph and only at the node list", "anchors": ["pybbn/graph/graph.py:Graph.remove_node", "pybbn/graph/graph.py:Graph.get_edges"]}
{"id": "C06", "title": "The directed part of a Pdag is acyclic", "statement": "Starting from an empty Pdag, after any sequence of add_node/add_edge calls with directed or undirected edges there is no cycle made of directed edges only, and no two nodes are joined by more than one edge.", "quantifier": "all finite sequences of add_node/add_edge calls with both edge types", "why_tests_cant": "mixed edge orders are unbounded", "anchors": ["pybbn/graph/pdag.py:Pdag.__shouldadd__", "pybbn/graph/pdag.py:PathDetector", "pybbn/graph/pdag.py:Pdag.get_out_nodes"]}
{"id": "C07", "title": "Parent lists of a Bbn are faithful and ordered by first insertion", "statement": "For any sequence of directed edge insertions, the parent list that the Bbn keeps for a node contains each parent exactly once, in the order in which the first edge from that parent was added; it agrees as a set with get_parents and get_parents_ordered returns it sorted.", "quantifier": "all finite sequences of add_node/add_edge calls", "why_tests_cant": "CPT semantics depends on this order for every construction order, tests use one order", "anchors": ["pybbn/graph/dag.py:Bbn.__edge_added__", "pybbn/graph/dag.py:Bbn.get_parents_ordered", "pybbn/graph/dag.py:Dag.get_parents"]}
{"id": "C08", "title": "Clique and separation-set identifiers never collide", "statement": "Two cliques get the same id only if they contain the same node ids; two separation sets with non-empty intersection get the same id only if they join the same pair of cliques in the same order; a clique and a separation set never share an id.", "quantifier": "all finite sets of distinct integer node ids (including negative and multi-digit ones)", "why_tests_cant": "collisions would only show for particular digit patterns; all join tree state is keyed by these strings", "anchors": ["pybbn/graph/node.py:Clique.__init__", "pybbn/graph/node.py:SepSet.__init__"]}
{"id": "C09", "title": "A potential lists every joint value exactly once", "statement": "get_potential_from_nodes returns one entry per combination of node values, in row-major order (last node varies fastest), each with value 1; the entries are pairwise distinct and every combination matches exactly one entry.", "quantifier": "all lists of nodes with distinct ids and duplicate-free value lists", "why_tests_cant": "combinatorial over all domains", "anchors": ["pybbn/graph/potential.py:PotentialUtil.get_potential_from_nodes", "pybbn/graph/potential.py:PotentialUtil.get_cartesian_product"]}
{"id": "C10", "title": "CPT rows are read in parent-insertion order", "statement": "After apply, the local table of a node assigns to parent values p1..pk and node value v the probability stored at position ((p1*|P2|+p2)*...+pk)*|V|+v of the node's probs list, where parents are taken in edge-insertion order; a probs list that is too short raises IndexError.", "quantifier": "all networks, nodes and value combinations", "why_tests_cant": "index arithmetic over arbitrary arities", "anchors": ["pybbn/graph/potential.py:PotentialUtil.get_potential", "pybbn/graph/potential.py:PotentialUtil.merge", "pybbn/pptc/potentialinitializer.py:PotentialInitializer.init"]}
{"id": "C11", "title": "Potential algebra is pointwise", "statement": "multiply(bigger, smaller) multiplies each entry of bigger by the entry of smaller it is compatible with and leaves the keys unchanged; marginalize_for sums exactly the compatible entries; divide is pointwise division with 0 whenever numerator or denominator is 0; normalize makes the values sum to 1 when the total is non-zero and changes nothing otherwise.", "quantifier": "all potentials over all node lists", "why_tests_cant": "algebraic laws over unbounded tables", "anchors": ["pybbn/graph/potential.py:PotentialUtil.multiply", "pybbn/graph/potential.py:PotentialUtil.marginalize_for", "pybbn/graph/potential.py:PotentialUtil.divide", "pybbn/graph/potential.py:PotentialUtil.normalize"]}
{"id": "C12", "title": "Moralization yields exactly the moral graph", "statement": "In the moralized graph two distinct nodes are adjacent if and only if they are joined by an edge of the network or are both parents of a common child; the nodes are those of the network.", "quantifier": "all networks", "why_tests_cant": "all graph shapes", "anchors": ["pybbn/pptc/moralizer.py:Moralizer.moralize"]}
{"id": "C13", "title": "Triangulation yields maximal cliques covering every family", "statement": "Triangulation terminates and returns cliques such that every node, every edge of the moral graph and every node together with all its parents lies inside one of them, no clique is contained in another one, and every clique is complete in the filled-in graph.", "quantifier": "all moral graphs, all node weights, every iteration order of the neighbor sets", "why_tests_cant": "elimination orders and fill-ins depend on the whole graph; hash-order dependent", "anchors": ["pybbn/pptc/triangulator.py:Triangulator.triangulate", "pybbn/pptc/triangulator.py:Triangulator.select_node", "pybbn/pptc/triangulator.py:Triangulator.is_subset"]}
{"id": "C14", "title": "The join tree is a tree", "statement": "transform returns a graph in which every separation set touches exactly two cliques, there is no cycle, and, when the network is (weakly) connected, every clique can be reached from every other one.", "quantifier": "all networks, all iteration orders", "why_tests_cant": "structural theorem over all clique sets", "anchors": ["pybbn/pptc/transformer.py:Transformer.transform", "pybbn/graph/jointree.py:JoinTree.add_edge", "pybbn/graph/jointree.py:PathDetector"]}
{"id": "C15", "title": "The join tree has the running intersection property", "statement": "For every variable, the cliques containing it are connected in the join tree through separation sets that all contain it.", "quantifier": "all networks, all iteration orders", "why_tests_cant": "this is the correctness condition of the junction tree algorithm; it depends on max-spanning-tree optimality over all chordal graphs", "anchors": ["pybbn/pptc/transformer.py:Transformer.get_sep_sets", "pybbn/pptc/triangulator.py:Triangulator"]}
{"id": "C16", "title": "apply computes exact prior marginals", "statement": "For a connected network with non-negative CPTs of the right length, InferenceController.apply(bbn) succeeds and get_bbn_potential(node) returns, for each value v of the node, the sum of the product of all CPT entries over all joint assignments with node=v, divided by that sum over all assignments.", "quantifier": "all connected discrete networks of any size, arity and shape, all CPTs, every iteration order of Python sets", "why_tests_cant": "exactness over all networks cannot be tested", "anchors": ["pybbn/pptc/inferencecontroller.py:InferenceController.apply", "pybbn/pptc/propagator.py:Propagator.propagate", "pybbn/graph/jointree.py:JoinTree.get_bbn_potential"]}
{"id": "C17", "title": "Exact inference also for disconnected networks", "statement": "The statement of C16 holds for networks with several connected components.", "quantifier": "all discrete networks", "why_tests_cant": "tests only use connected networks", "anchors": ["pybbn/pptc/propagator.py:Propagator.propagate", "pybbn/pptc/evidencecollector.py:EvidenceCollector.start"]}
{"id": "C18", "title": "Posteriors are exact after any history of evidence", "statement": "After apply and any sequence of update_evidences / set_observation / unobserve / unobserve_all calls (with virtual, finding, observation or unobserve evidence), get_bbn_potential returns the exact posterior for the likelihoods currently stored: proportional to sum over assignments of product of CPTs times product of likelihoods.", "quantifier": "all connected networks, all finite histories of evidence operations, every iteration order", "why_tests_cant": "histories are unbounded and stale-state bugs need specific sequences", "anchors": ["pybbn/graph/jointree.py:JoinTree.update_evidences", "pybbn/graph/jointree.py:Evidence.compare", "pybbn/pptc/inferencecontroller.py:InferenceController.evidence_retracted"]}
{"id": "C19", "title": "Calibration after propagation", "statement": "After apply or any propagating evidence update, marginalizing either of two adjacent cliques onto their separation set gives the separation set's table, and each clique table is the exact (unnormalized) joint of its variables with the evidence.", "quantifier": "all connected networks and histories", "why_tests_cant": "message passing over arbitrary trees", "anchors": ["pybbn/pptc/evidencecollector.py:EvidenceCollector", "pybbn/pptc/evidencedistributor.py:EvidenceDistributor", "pybbn/graph/potential.py:PotentialUtil.pass_single_message"]}
{"id": "C20", "title": "Results do not depend on hash or set iteration order", "statement": "Posteriors returned for a given network and evidence history are the same for every iteration order of the Python sets involved (PYTHONHASHSEED).", "quantifier": "all networks, histories and pairs of iteration orders", "why_tests_cant": "a test run sees one hash seed", "anchors": ["pybbn/pptc/evidencecollector.py:EvidenceCollector.__get_neighboring_cliques__", "pybbn/pptc/triangulator.py:Triangulator.generate_cliques", "pybbn/graph/jointree.py:PathDetector"]}
{"id": "C21", "title": "Posteriors are probability distributions", "statement": "Every posterior table returned by get_bbn_potential/get_posteriors is non-negative and sums to 1 when the evidence has positive probability; when it is impossible all entries are 0 and no exception is raised.", "quantifier": "all connected networks and evidence histories", "why_tests_cant": "quantifies over all evidence", "anchors": ["pybbn/graph/potential.py:PotentialUtil.normalize", "pybbn/graph/jointree.py:JoinTree.get_posteriors"]}
{"id": "C22", "title": "Evidence is canonicalized by validate", "statement": "validate leaves exactly one likelihood per value of the node: virtual evidence is clamped to [0,1]; finding evidence becomes 0/1 with not all 0; observation evidence becomes one 1 (the first largest likelihood) and 0 elsewhere; unobserve evidence becomes all 1; validating twice equals validating once.", "quantifier": "all nodes and all likelihood maps over their values", "why_tests_cant": "all real likelihood vectors", "anchors": ["pybbn/graph/jointree.py:Evidence.validate"]}
{"id": "C23", "title": "set_observation toggles", "statement": "Setting an observation on a node that is already observed at the same value un-observes it; on an unobserved node, or one observed at another value, it makes that value the only possible one.", "quantifier": "all reachable join trees, nodes and values", "why_tests_cant": "depends on the whole evidence history", "anchors": ["pybbn/graph/jointree.py:JoinTree.set_observation"]}
{"id": "C24", "title": "unobserve_all restores the prior", "statement": "After any history of evidence operations, unobserve_all followed by a query returns exactly the posteriors of the freshly built join tree.", "quantifier": "all networks and histories", "why_tests_cant": "unbounded histories", "anchors": ["pybbn/graph/jointree.py:JoinTree.unobserve_all", "pybbn/graph/jointree.py:JoinTree.get_unobserved_evidence"]}
{"id": "C25", "title": "Only the latest evidence per node matters", "statement": "Two histories of observation/finding/unobserve updates after which each node's latest likelihoods agree give equal posteriors, whatever the order and batching of the updates.", "quantifier": "all pairs of evidence histories", "why_tests_cant": "order-independence over all permutations and batchings", "anchors": ["pybbn/graph/jointree.py:JoinTree.update_evidences", "pybbn/graph/jointree.py:JoinTree.get_change_type"]}
{"id": "C26", "title": "Evidence changes are never missed", "statement": "If update_evidences changes any stored likelihood then the join tree is re-initialized and propagated before the call returns; propagation without re-initialization never happens.", "quantifier": "all stored likelihoods and all evidence of all four types", "why_tests_cant": "all likelihood vectors; a virtual-after-observation corner case", "anchors": ["pybbn/graph/jointree.py:Evidence.compare", "pybbn/graph/jointree.py:JoinTree.get_change_type", "pybbn/graph/jointree.py:JoinTree.__notify_listener__"]}
{"id": "C27", "title": "A failing evidence update has no effect", "statement": "If update_evidences raises (unknown node or value), stored evidence and posteriors are unchanged.", "quantifier": "all join trees and evidence lists", "why_tests_cant": "failure points inside the loop", "anchors": ["pybbn/graph/jointree.py:JoinTree.update_evidences"]}
{"id": "C28", "title": "reapply equals apply with the new CPTs", "statement": "reapply(jt, cpts) returns a join tree without evidence that cannot be told from apply on the network with the given CPTs replaced: the same operations give the same posteriors and the same exceptions; on connected networks the posteriors are exact; ids not in the network are ignored.", "quantifier": "all networks (connected or not), histories before the call, CPT dictionaries, and evidence operations after the call", "why_tests_cant": "all CPT updates", "anchors": ["pybbn/pptc/inferencecontroller.py:InferenceController.reapply", "pybbn/graph/jointree.py:JoinTree.update_bbn_cpts", "pybbn/pptc/potentialinitializer.py:PotentialInitializer.reinit"]}
{"id": "C29", "title": "apply depends only on the network", "statement": "Calling apply gives exact marginals whatever apply calls were made before on the same node objects (for the same or an earlier version of the network).", "quantifier": "all sequences of network edits and apply calls", "why_tests_cant": "needs histories; node objects carry hidden state between calls", "anchors": ["pybbn/pptc/initializer.py:Initializer.get_clique", "pybbn/pptc/inferencecontroller.py:InferenceController.apply"]}
{"id": "C30", "title": "Join tree serialization round trip", "statement": "from_dict(to_dict(jt, bbn)), directly or through JSON key stringification, followed by apply_from_serde yields the same cliques, the same separation sets and the same posteriors as the freshly built join tree.", "quantifier": "all networks", "why_tests_cant": "all shapes; single-clique and disconnected corner cases", "anchors": ["pybbn/graph/jointree.py:JoinTree.to_dict", "pybbn/graph/jointree.py:JoinTree.from_dict", "pybbn/pptc/inferencecontroller.py:InferenceController.apply_from_serde"]}
{"id": "C31", "title": "Network dictionary/JSON round trip", "statement": "Bbn.from_dict(Bbn.to_dict(bbn)), directly or through JSON key stringification, has the same nodes (ids, names, values, probs), the same edges and the same ordered parent lists.", "quantifier": "all networks built with add_node/add_edge", "why_tests_cant": "all networks and orders", "anchors": ["pybbn/graph/dag.py:Bbn.to_dict", "pybbn/graph/dag.py:Bbn.from_dict"]}
{"id": "C32", "title": "CSV round trip", "statement": "Bbn.from_csv applied to the text written by Bbn.to_csv gives back the same nodes, edges and ordered parent lists, for names and values that contain no comma, bar, newline or surrounding whitespace and are non-empty.", "quantifier": "all directed networks with such names/values", "why_tests_cant": "all strings and networks; parser ambiguity", "anchors": ["pybbn/graph/dag.py:Bbn.to_csv", "pybbn/graph/dag.py:Bbn.from_csv"]}
{"id": "C33", "title": "Inverse-CDF sampling assigns each value its probability", "statement": "Table.get_value(p, sample) returns value number i exactly when p lies in the half-open interval between the (i-1)-th and i-th cumulative probability of the CPT row selected by the sampled parent values; so the set of p giving value i has length equal to its conditional probability.", "quantifier": "all nodes, CPT rows summing to 1, parent samples and p in [0,1)", "why_tests_cant": "continuous range of p and all CPTs", "anchors": ["pybbn/sampling/sampling.py:Table.__init__", "pybbn/sampling/sampling.py:Table.get_value"]}
{"id": "C34", "title": "The sampler visits parents before children", "statement": "The order used by LogicSampler is a permutation of the node ids in which every parent precedes its children, for every acyclic network.", "quantifier": "all acyclic networks with arbitrary integer ids", "why_tests_cant": "comparison-sort correctness for a non-transitive comparator", "anchors": ["pybbn/sampling/sampling.py:LogicSampler.__topological_sort__"]}
{"id": "C35", "title": "Samples are complete, in-domain and agree with the evidence", "statement": "Every sample returned by get_samples assigns each node exactly one of its values and assigns the evidence values to evidence nodes.", "quantifier": "all networks, evidence that gives nodes values of theirs, and random draws", "why_tests_cant": "random streams", "anchors": ["pybbn/sampling/sampling.py:LogicSampler.get_samples"]}
{"id": "C36", "title": "Rejection sampling keeps exactly the matching draws", "statement": "get_samples returns exactly the forward draws whose evidence nodes were drawn equal to the evidence, in draw order.", "quantifier": "all networks, evidence and random draw streams", "why_tests_cant": "a biased acceptance rule can only be seen by proof or large statistics", "anchors": ["pybbn/sampling/sampling.py:LogicSampler.get_samples"]}
{"id": "C37", "title": "Sampler and exact inference read the same CPT", "statement": "For every node and every assignment of its parents, the conditional distribution used by the sampler is the one used by exact inference.", "quantifier": "all networks and edge insertion orders", "why_tests_cant": "depends on insertion order of parents", "anchors": ["pybbn/sampling/sampling.py:Table.__init__", "pybbn/graph/dag.py:Bbn.get_parents_ordered", "pybbn/pptc/potentialinitializer.py:PotentialInitializer.init"]}
{"id": "C38", "title": "get_ace returns the interventional probability", "statement": "Ace(bbn).get_ace(x, y, v)[xv] equals P(y=v | do(x=xv)), the sum over assignments with x=xv and y=v of the product of all CPT entries except that of x.", "quantifier": "all connected acyclic networks, x, y, v, xv (with P(xv | parents) > 0)", "why_tests_cant": "all networks; wrong adjustment formulas agree on small examples", "anchors": ["pybbn/causality/ace.py:Ace.get_ace"]}
{"id": "C39", "title": "Path activity is textbook d-separation blocking", "statement": "is_active_path(g, path, evidence) on a path with at least one interior node is true exactly when every interior non-collider is outside the evidence and every interior collider is in the evidence or has a descendant there; on simple paths of a DAG it never raises.", "quantifier": "all DAGs, simple paths and evidence sets", "why_tests_cant": "all paths in all DAGs", "anchors": ["pybbn/causality/do.py:is_active_path", "pybbn/causality/do.py:is_active_triplet", "pybbn/causality/do.py:get_triplet_type"]}
{"id": "C40", "title": "Minimal confounders form a valid adjustment set", "statement": "The set returned by get_minimal_confounders(g,x,y) blocks every backdoor path from x to y and contains no descendant of x.", "quantifier": "all DAGs and node pairs", "why_tests_cant": "adjustment validity quantifies over all paths in all DAGs", "anchors": ["pybbn/causality/do.py:get_minimal_confounders", "pybbn/causality/do.py:find_minimal_confounders"]}
{"id": "C41", "title": "get_all_confounders never returns inadmissible nodes", "statement": "get_all_confounders(g,x,y) contains neither x, y nor a descendant of x, and every returned node lies on an active backdoor path; exactly, it returns the nodes of active backdoor paths other than x, y, descendants of x and colliders of inactive backdoor paths.", "quantifier": "all DAGs and node pairs", "why_tests_cant": "all DAGs", "anchors": ["pybbn/causality/do.py:get_all_confounders"]}
{"id": "C42", "title": "Gaussian conditioning computes the conditional covariance", "statement": "do_inferences returns for the unobserved variables, in header order, the Schur complement of the observed block; the result is symmetric, does not depend on the order of observations, and conditioning one variable at a time gives the same covariance as conditioning on all at once.", "quantifier": "all dimensions, all symmetric matrices with invertible observed block, all observation lists", "why_tests_cant": "matrix identities in all dimensions", "anchors": ["pybbn/gaussian/inference.py:GaussianInference.do_inferences"]}
{"id": "C43", "title": "Gaussian conditioning computes the conditional mean", "statement": "For a Gaussian with mean vector M, the mean reported by P after do_inferences is mu_Y + S_YZ S_ZZ^-1 (z - mu_Z), before any observation it is M, and conditioning one at a time agrees with conditioning at once.", "quantifier": "all mean vectors, covariances and observation lists", "why_tests_cant": "tests use near-zero means where sign errors vanish", "anchors": ["pybbn/gaussian/inference.py:GaussianInference.P", "pybbn/gaussian/inference.py:GaussianInference.do_inferences"]}
{"id": "C44", "title": "libpgm conversion preserves CPT semantics", "statement": "from_libpgm_discrete_dictionary builds a network in which the table of each node gives, for every parent combination, the row stored under that combination in the source dictionary.", "quantifier": "all well-formed libpgm dictionaries", "why_tests_cant": "all parent orders and arities", "anchors": ["pybbn/graph/factory.py:Factory.from_libpgm_discrete_object"]}
{"id": "C45", "title": "from_data estimates conditional relative frequencies", "statement": "Every CPT row built by from_data is non-negative, sums to 1, equals the relative frequencies among the matching rows when there are any and is uniform otherwise; and exact inference reads each row for the parent combination it was estimated from.", "quantifier": "all structures and all complete data frames", "why_tests_cant": "all data sets and parent orders", "anchors": ["pybbn/graph/factory.py:Factory.from_data"]}
{"id": "C46", "title": "Generated multi-connected structures are connected DAGs", "statement": "For n >= 1, generate_multi_bbn never raises and its structure has the nodes 0..n-1, is acyclic and weakly connected, for every outcome of the random choices; for n >= 2 some continuation of the draws always ends the run.", "quantifier": "all n, max_iter and random draws", "why_tests_cant": "random choices", "anchors": ["pybbn/generator/bbngenerator.py:__generate_multi_connected_structure__"]}
{"id": "C47", "title": "Generated singly-connected structures are polytrees", "statement": "For n >= 1, generate_singly_bbn never raises and its structure has the nodes 0..n-1, is acyclic, weakly connected and has exactly one undirected path between any two nodes, for every outcome of the random choices; for n >= 2 some continuation of the draws always ends the run.", "quantifier": "all n, max_iter and random draws", "why_tests_cant": "random choices", "anchors": ["pybbn/generator/bbngenerator.py:__generate_singly_structure__"]}
{"id": "C48", "title": "Generated parameters fit the generated structure", "statement": "Every generated node has at least two values and its CPT has (product of parent cardinalities) x cardinality entries in the converted network, so that apply does not fail.", "quantifier": "all generated structures and random draws", "why_tests_cant": "random choices", "anchors": ["pybbn/generator/bbngenerator.py:__generate_parameters__", "pybbn/generator/bbngenerator.py:convert_for_exact_inference"]}
{"id": "C49", "title": "hash_string is the base-31 polynomial of the code points", "statement": "IdUtil.hash_string(s) is the sum of ord(s[i])*31^(n-1-i) without any truncation; hash of a concatenation is determined by the hashes and the length of the second part.", "quantifier": "all strings", "why_tests_cant": "all lengths (32-bit truncation would only show on long strings)", "anchors": ["pybbn/graph/util.py:IdUtil.hash_string"]}
{"id": "C50", "title": "A sample is drawn with its joint probability", "statement": "Without evidence, the numbers u from which LogicSampler draws the joint value s form a box (one half-open interval per node), and the product of the widths of the intervals is the joint probability of s.", "quantifier": "all networks, joint values and random numbers in [0,1)", "why_tests_cant": "statistical tests only approximate the distribution", "anchors": ["pybbn/sampling/sampling.py:LogicSampler.get_samples", "pybbn/sampling/sampling.py:Table.get_value"]}
{"id": "C51", "title": "get_i2n and get_n2i are the id/name maps of the network", "statement": "get_i2n maps exactly the ids of the nodes in the network to their names; get_n2i maps a name to the id of the node last added under it; with distinct names the two maps are inverse to each other.", "quantifier": "all sequences of add_node / add_edge calls, all ids and names", "why_tests_cant": "any order of insertions and repeated names", "anchors": ["pybbn/graph/dag.py:Dag.get_i2n", "pybbn/graph/dag.py:Dag.get_n2i"]}
{"id": "C52", "title": "CPT rows that sum to one make a probability distribution", "statement": "If the edges form no cycle and every CPT row sums to one, the products of CPT entries over all joint values sum to one.", "quantifier": "all networks built by add_node / add_edge, any number of nodes and values", "why_tests_cant": "needs an induction over a topological order for networks of any size", "anchors": ["pybbn/graph/node.py:BbnNode", "pybbn/pptc/initializer.py:Initializer.initialize"]}
{"id": "C53", "title": "Observing all parents of a node makes its posterior the CPT row", "statement": "In a connected acyclic network with normalized CPTs: after any evidence history that leaves exactly the parents of a node observed (at values of nonzero probability), get_posteriors gives that node the row of its CPT.", "quantifier": "all networks, nodes, parent values and evidence histories", "why_tests_cant": "all networks and histories", "anchors": ["pybbn/graph/jointree.py:JoinTree.get_posteriors", "pybbn/graph/jointree.py:JoinTree.set_observation"]}
{"id": "C54", "title": "Triangulation does not depend on set iteration order", "statement": "The sequence of cliques Triangulator.triangulate returns (their ids and node sets) is the same for every iteration order of the neighbor sets of the moral graph: each step eliminates the node that needs the fewest new edges, then has the smallest table, then the smallest id, and a clique is kept unless one kept before contains it. The join tree has the same cliques, separation sets, edges and neighbors for every iteration order.", "quantifier": "all networks and all iteration orders of the sets", "why_tests_cant": "set iteration order cannot be controlled or enumerated by a test", "anchors": ["pybbn/pptc/triangulator.py:Triangulator.triangulate", "pybbn/pptc/triangulator.py:Triangulator.generate_cliques"]}
{"id": "C55", "title": "Minimal mediators cut the directed paths", "statement": "get_minimal_mediators(g,x,y) never raises on a DAG; every returned node is a proper descendant of x and a proper ancestor of y, and the returned nodes block every directed path from x to y that has an inner node.", "quantifier": "all DAGs, node pairs and set iteration orders", "why_tests_cant": "quantifies over all paths in all DAGs", "anchors": ["pybbn/causality/do.py:get_minimal_mediators", "pybbn/causality/do.py:find_minimal_mediator"]}
{"id": "C56", "title": "Separation sets are chosen by mass, then cost, then id", "statement": "Any two cliques with a node in common (whether or not they get a separation set of their own) are joined in the join tree by separation sets each of which is at least as good as the one between the two: more common nodes; then fewer rows in the two clique tables; then the smaller id. The cliques of the tree come in the order in which they were formed.", "quantifier": "all networks, all pairs of cliques, all iteration orders of the sets", "why_tests_cant": "a statement about all paths of the tree for all networks, with ties", "anchors": ["pybbn/pptc/transformer.py:Transformer.get_sep_sets", "pybbn/pptc/transformer.py:Transformer.transform", "pybbn/graph/jointree.py:JoinTree.add_edge"]}
{"id": "C57", "title": "Generated networks can be saved with to_json", "statement": "to_json(g, params) writes the structure and parameters returned by generate_multi_bbn or generate_singly_bbn as a JSON document.", "quantifier": "all generated structures and random draws", "why_tests_cant": "random choices; no test calls to_json on a generated network with the numpy cardinalities in place", "anchors": ["pybbn/generator/bbngenerator.py:to_json"]}
{"id": "C58", "title": "The graph for drawing is the network", "statement": "convert_for_drawing gives a directed graph with one node per node of the network, in order, and exactly the edges of the network; for a network converted from a generated structure it is that structure.", "quantifier": "all networks; all generated structures and random draws", "why_tests_cant": "all networks", "anchors": ["pybbn/generator/bbngenerator.py:convert_for_drawing"]}
{"id": "C59", "title": "Gaussian marginals list every variable once", "statement": "After any sequence of successful do_inference(s) calls, P and marginals list the observed variables with the observed value and variance 0 and then the others, in header order, with the variances of the covariance matrix; every variable of the original vector appears exactly once, observations of earlier calls are kept, and observing a variable again raises KeyError.", "quantifier": "all vectors and all sequences of calls", "why_tests_cant": "all call sequences", "anchors": ["pybbn/gaussian/inference.py:GaussianInference.P", "pybbn/gaussian/inference.py:GaussianInference.marginals", "pybbn/gaussian/inference.py:GaussianInference.do_inferences"]}
{"id": "C60", "title": "from_data accepts every structure over the columns", "statement": "from_data(structure, df) succeeds for every structure whose keys are the columns of the data frame and whose parents are columns, whatever the cells contain; a structure that misses a column or names an unknown one raises KeyError and is never ignored.", "quantifier": "all data frames of strings and all structures", "why_tests_cant": "unit tests use cells such as 'on' and 'off' that never coincide with a column name", "anchors": ["pybbn/graph/factory.py:Factory.from_data"]}
{"id": "C61", "title": "A deep copy of a join tree behaves like the original", "statement": "copy.deepcopy(join_tree) gives a join tree with the same posteriors that answers every later sequence of evidence operations exactly like the original would, and set_listener is all that is needed to attach it to a controller.", "quantifier": "all networks and join trees reached by any history of operations; all later histories", "why_tests_cant": "all histories of evidence operations on the copy", "anchors": ["pybbn/graph/jointree.py:JoinTree.__deepcopy__", "pybbn/graph/jointree.py:JoinTree.set_listener", "pybbn/graph/jointree.py:JoinTree.__notify_listener__"]}
{"id": "C62", "title": "to_nx_graph exports the network", "statement": "to_nx_graph gives a directed graph whose nodes are the ids of the nodes in order, whose edges are exactly the edges added to the network, and labels that map each id to the name of its node.", "quantifier": "all sequences of add_node / add_edge calls", "why_tests_cant": "all networks, including repeated insertions", "anchors": ["pybbn/graph/dag.py:Dag.to_nx_graph"]}
{"id": "C63", "title": "Inactive paths mean that evidence is irrelevant", "statement": "If is_active_path answers False for every path that get_all_paths lists between x and each node of a set Y, given the observed nodes Z, then evidence of any kind on Y does not change what get_posteriors answers for x while Z stays observed.", "quantifier": "all connected acyclic networks with normalized CPTs and distinct names, all x, Y, Z, all pairs of evidence histories with possible evidence", "why_tests_cant": "relates two modules (path activity and inference) for all networks and all evidence", "anchors": ["pybbn/causality/do.py:is_active_path", "pybbn/causality/do.py:get_all_paths", "pybbn/graph/jointree.py:JoinTree.get_posteriors", "pybbn/graph/dag.py:Dag.to_nx_graph"]}
{"id": "C64", "title": "Back-door adjustment gives the causal effect", "statement": "If do.py finds every path from x to y that starts with an edge into x inactive given Z, and Z contains neither x nor a descendant of x, then the average of the posteriors of y with x and Z observed, weighted with the probability of Z, is the probability of y when x is set (truncated factorization).", "quantifier": "all connected acyclic networks with normalized CPTs and distinct names, all x, y, Z and values for which the observed combinations are possible, all evidence histories that set the observations", "why_tests_cant": "relates path activity, inference and interventions for all networks", "anchors": ["pybbn/causality/do.py:is_active_path", "pybbn/causality/do.py:get_paths", "pybbn/graph/jointree.py:JoinTree.get_posteriors"]}
{"id": "C65", "title": "get_all_confounders returns an adjustment set", "statement": "get_all_confounders(g,x,y) returns a set that satisfies the back-door criterion for x and y (no descendant of x; every backdoor path blocked) whenever y does not point at x.", "quantifier": "all DAGs, node pairs and set iteration orders", "why_tests_cant": "quantifies over all paths in all DAGs", "anchors": ["pybbn/causality/do.py:get_all_confounders"]}
{"id": "C66", "title": "A network after remove_node is the network without the node", "statement": "After bbn.remove_node(id), InferenceController.apply(bbn), Bbn.to_dict / from_dict and everything else computed from bbn behave as for the network built by the same calls without the node and its edges.", "quantifier": "all sequences of add_node / add_edge calls, all ids, all iteration orders", "why_tests_cant": "all networks and all positions of the removed node", "anchors": ["pybbn/graph/graph.py:Graph.remove_node", "pybbn/pptc/inferencecontroller.py:InferenceController.apply", "pybbn/pptc/moralizer.py:Moralizer.moralize", "pybbn/pptc/potentialinitializer.py:PotentialInitializer.init", "pybbn/graph/dag.py:Bbn.from_dict"]}
{"id": "C67", "title": "Potential.to_dict keeps every row", "statement": "Potential.to_dict(potentials) has one item per row of the potentials, and the value of a row is found under the key 'id=value|id=value|\u2026' (ids ascending); for the potentials of the nodes of a join tree it maps 'id=value' to the posterior, for a clique table it maps the joint values to their weight.", "quantifier": "all join trees and evidence histories, all tables, all names of values", "why_tests_cant": "all values (arbitrary strings), all orders in which rows are filled", "anchors": ["pybbn/graph/potential.py:Potential.to_dict", "pybbn/graph/potential.py:PotentialEntry.get_kv", "pybbn/graph/potential.py:PotentialEntry.get_entry_keys"]}
{"id": "C68", "title": "to_dne describes the network", "statement": "Bbn.to_dne(bbn) gives a text in which a reader of DNET statements finds, for every node in order, its name, its values, the names of its parents in the order in which its CPT is indexed, and its CPT; with distinct names the text describes the same joint distribution.", "quantifier": "all sequences of add_node / add_edge calls, all names of nodes and values", "why_tests_cant": "all networks and all strings as names; whether the listed parent order fits the CPT depends on the order of the calls", "anchors": ["pybbn/graph/dag.py:Bbn.to_dne", "pybbn/graph/dag.py:Bbn.to_dict"]}
{"id": "C69", "title": "Join trees of one network do not disturb each other", "statement": "A program may call apply several times on the same network, reapply on the trees, and enter evidence into all of them in any interleaving (and add nodes and edges to the network): every tree answers as if it were the only one and had been made from a network of its own.", "quantifier": "all networks, all programs of apply / reapply / evidence / edit actions, all iteration orders", "why_tests_cant": "all interleavings; the trees share the node objects of the network", "anchors": ["pybbn/pptc/inferencecontroller.py:InferenceController.apply", "pybbn/pptc/inferencecontroller.py:InferenceController.reapply", "pybbn/pptc/initializer.py:Initializer.initialize", "pybbn/graph/dag.py:Bbn.__edge_added__"]}
{"id": "C70", "title": "Rounding errors of posteriors are bounded", "statement": "In floating-point arithmetic with unit roundoff u (no overflow or underflow), apply and every later evidence call raise exactly the exceptions exact arithmetic would raise, and each value of get_bbn_potential(node) is the exact posterior up to a factor of at most (1-u)^n, where n counts the roundings that went into it (the same program run on counters, which never looks at a table value); in particular it is 0 exactly when the exact posterior is 0. Runs with different set iteration orders agree up to the roundings of both.", "quantifier": "all networks with non-negative CPT entries, all evidence histories, all iteration orders, all arithmetics that round each operation with relative error at most u", "why_tests_cant": "all roundings and all numbers; a test sees one arithmetic and compares with a tolerance", "anchors": ["pybbn/graph/potential.py:PotentialUtil", "pybbn/pptc/initializer.py:Initializer.initialize", "pybbn/pptc/propagator.py:Propagator.propagate", "pybbn/graph/jointree.py:JoinTree.get_bbn_potential", "pybbn/graph/jointree.py:JoinTree.update_evidences"]}
{"id": "C71", "title": "Reports obey total probability and Bayes' rule", "statement": "After any history of evidence with no evidence about w: the probability get_bbn_potential reports for v=x is the average of what it reports after additionally observing w=y, weighted with what it reports for w=y; and P(v=x) P(w=y | v=x observed) = P(w=y) P(v=x | w=y observed) when v and w have no evidence.", "quantifier": "all connected networks, all evidence histories, all nodes and values, all iteration orders", "why_tests_cant": "relates many runs of the library with different evidence, for all networks", "anchors": ["pybbn/graph/jointree.py:JoinTree.update_evidences", "pybbn/graph/jointree.py:JoinTree.get_bbn_potential", "pybbn/pptc/inferencecontroller.py:InferenceController.evidence_retracted"]}
{"id": "C72", "title": "Ids, names and insertion order do not matter", "statement": "Two networks with the same values, CPTs and, per node, the same parents in the same order, that differ in ids, names and the order of add_node / add_edge calls, report the same probabilities after the same evidence about corresponding nodes.", "quantifier": "all connected networks, all renamings, all reorderings that keep the order of the edges into each node, all evidence histories about their nodes, all iteration orders", "why_tests_cant": "relates all pairs of equivalent networks; cliques, ids of cliques and message order all depend on ids and order", "anchors": ["pybbn/graph/dag.py:Bbn", "pybbn/graph/graph.py:Graph.add_edge", "pybbn/pptc/inferencecontroller.py:InferenceController.apply", "pybbn/graph/jointree.py:JoinTree.get_bbn_potential"]}
{"id": "C73", "title": "An unobserved effect changes nothing", "statement": "Adding a node that is nobody's parent and whose CPT rows sum to one (edges from any existing nodes to it) does not change the probabilities reported for the other nodes, whatever evidence is given about them.", "quantifier": "all connected networks, all new nodes and parent sets, all evidence histories about the other nodes, all iteration orders", "why_tests_cant": "relates networks with different moral graphs, triangulations and join trees", "anchors": ["pybbn/pptc/inferencecontroller.py:InferenceController.apply", "pybbn/pptc/moralizer.py:Moralizer.moralize", "pybbn/graph/jointree.py:JoinTree.get_bbn_potential"]}
{"id": "C74", "title": "Virtual evidence is an observed effect", "statement": "Giving a node v without evidence the (virtual) evidence e has the effect on all reports of adding a node with parent v and values on/off, where P(on | v=x) is proportional to the likelihood e gives x, and observing on.", "quantifier": "all connected networks, all evidence histories about their nodes, all evidence about v with a likelihood other than 1, all iteration orders", "why_tests_cant": "relates two different networks and two different kinds of evidence for all histories", "anchors": ["pybbn/graph/jointree.py:Evidence.validate", "pybbn/graph/jointree.py:JoinTree.update_evidences", "pybbn/pptc/evidencecollector.py:EvidenceCollector"]}
{"id": "C75", "title": "Only ancestors of what is asked and observed matter", "statement": "Two networks that agree (nodes, CPTs, parents) on a set of nodes closed under parents, and whose CPT rows outside the set sum to one (without cycles there), report the same probabilities for the nodes of the set after the same evidence about nodes of the set, however different they are elsewhere. In particular new CPTs given to reapply for nodes outside the set change nothing in it.", "quantifier": "all pairs of connected networks, all ancestral sets, all evidence histories about the set, all iteration orders, all join trees of a session", "why_tests_cant": "relates networks with different moral graphs, triangulations and join trees", "anchors": ["pybbn/pptc/inferencecontroller.py:InferenceController.apply", "pybbn/pptc/inferencecontroller.py:InferenceController.reapply", "pybbn/pptc/potentialinitializer.py:PotentialInitializer.init", "pybbn/graph/jointree.py:JoinTree.get_bbn_potential"]}
{"id": "C76", "title": "Sampling with floats samples a nearby network", "statement": "LogicSampler(bbn).get_samples with floating-point cumulative sums (unit roundoff u) returns, for the same random numbers in [0,1), what it would return without rounding for a network with the same structure whose CPT rows sum to one and whose entries differ by at most 2((1+u)^k - 1) for a node with k values; in particular it raises nothing exact arithmetic would not raise. A value of probability 0 is never drawn.", "quantifier": "all networks whose CPT rows sum to one, all evidence, sample sizes and random numbers, all arithmetics that round each addition with relative error at most u (proved of doubles)", "why_tests_cant": "all roundings and all random numbers; a test cannot wait for the random numbers at the ends of the intervals", "anchors": ["pybbn/sampling/sampling.py:Table.__init__", "pybbn/sampling/sampling.py:Table.get_value", "pybbn/sampling/sampling.py:LogicSampler.get_samples"]}
{"id": "C77", "title": "Only the ratios of likelihoods matter", "statement": "Two evidence histories that store, for each node, likelihoods that differ by a factor only, lead to the same reports; in particular virtual evidence scaled by a positive constant has the same effect.", "quantifier": "all connected networks, all pairs of evidence histories, all factors per node, all iteration orders", "why_tests_cant": "relates all pairs of histories with all scalings; zero and underivable cases are not enumerable", "anchors": ["pybbn/graph/jointree.py:JoinTree.update_evidences", "pybbn/graph/jointree.py:Evidence.validate", "pybbn/graph/jointree.py:JoinTree.get_bbn_potential"]}
{"id": "C78", "title": "What the evidence rules out is impossible and stays so", "statement": "A value whose stored likelihood is 0 is reported with probability 0; the only value of a node not ruled out is reported with probability 1 (if the evidence is not impossible); evidence that rules out at least as much never turns a probability reported as 0 into another one.", "quantifier": "all connected networks, all evidence histories (and pairs of them), all nodes and values, all iteration orders", "why_tests_cant": "a statement about zeros in all posteriors after all histories", "anchors": ["pybbn/graph/jointree.py:JoinTree.set_observation", "pybbn/graph/jointree.py:JoinTree.update_evidences", "pybbn/pptc/inferencecontroller.py:InferenceController.evidence_retracted", "pybbn/graph/jointree.py:JoinTree.get_bbn_potential"]}
{"id": "C79", "title": "Chain rule", "statement": "Observing all nodes of a network one after another, in any order, and multiplying the probabilities reported for the values just before each is observed gives the product of the CPT entries of these values. After earlier evidence, and for some of the nodes only, the product is their joint probability given the evidence.", "quantifier": "all connected acyclic networks with normalized CPTs, all orders of the nodes, all values, all iteration orders; all earlier evidence without ambiguous virtual evidence", "why_tests_cant": "relates a whole session of successive queries and observations to the CPTs for all networks and orders", "anchors": ["pybbn/graph/jointree.py:JoinTree.update_evidences", "pybbn/graph/jointree.py:JoinTree.get_bbn_potential", "pybbn/pptc/inferencecontroller.py:InferenceController.apply"]}
{"id": "C80", "title": "Reports depend on the joint distribution only", "statement": "Two networks over the same variables with the same joint distribution (up to a constant factor), whatever their edges and CPTs (e.g. after reversing arcs), report the same probabilities after the same evidence. Conversely, networks with normalized CPTs that report the same after all observations have the same joint distribution.", "quantifier": "all pairs of connected networks over the same variables, all evidence histories, all iteration orders", "why_tests_cant": "relates networks with different moral graphs, triangulations and join trees, for all histories; the converse quantifies over all sessions", "anchors": ["pybbn/pptc/inferencecontroller.py:InferenceController.apply", "pybbn/graph/jointree.py:JoinTree.update_evidences", "pybbn/graph/jointree.py:JoinTree.get_bbn_potential"]}
{"id": "C81", "title": "Generated networks survive the file they are saved to", "statement": "generate_bbn_to_file never raises, writes CSV exactly if the path ends with csv and JSON otherwise, and the file read back with from_csv or from_json holds the network drawn: the same nodes, CPTs and ordered parents as convert_for_exact_inference gives for the same random draws; connected, acyclic, ready for exact inference, and singly connected if bbn_type is singly.", "quantifier": "all n, max_values, max_alpha at least 1, all max_iter, paths, types and random draws, all float texts that read back to the same float", "why_tests_cant": "all random draws; relates the random generator, two file formats and inference", "anchors": ["pybbn/generator/bbngenerator.py:generate_bbn_to_file", "pybbn/generator/bbngenerator.py:convert_for_exact_inference", "pybbn/graph/dag.py:Bbn.to_csv", "pybbn/graph/dag.py:Bbn.to_json"]}
{"id": "C82", "title": "How a report depends on one CPT", "statement": "When the CPT of one node moves along a straight line p + t q and is given to reapply, the probability reported for a value of a node, after any evidence, is (a t + b) / (c t + d) with numbers that do not depend on t. So with a CPT between two others, the report lies between the two reports.", "quantifier": "all connected networks, all join trees of a session, all nodes, lines and t with CPTs that are valid, all evidence histories, all iteration orders", "why_tests_cant": "relates the reports for infinitely many CPTs", "anchors": ["pybbn/pptc/inferencecontroller.py:InferenceController.reapply", "pybbn/graph/jointree.py:JoinTree.update_bbn_cpts", "pybbn/graph/jointree.py:JoinTree.get_bbn_potential"]}
{"id": "C83", "title": "Nodes and posteriors are found by id and by name", "statement": "On a join tree, get_bbn_nodes lists every node of the network once, get_bbn_node(id) and get_bbn_node_by_name(name) return the node with that id or name (None exactly if there is none), and get_posteriors has one entry per node, under its name, with the values of the node and the probabilities get_bbn_potential gives.", "quantifier": "all networks, all join trees of a session (evidence, reapply, reload), all ids and names", "why_tests_cant": "all cliques, orders and sessions; holds for every node at once", "anchors": ["pybbn/graph/jointree.py:JoinTree.get_bbn_nodes", "pybbn/graph/jointree.py:JoinTree.get_bbn_node", "pybbn/graph/jointree.py:JoinTree.get_bbn_node_by_name", "pybbn/graph/jointree.py:JoinTree.get_posteriors"]}
{"id": "C84", "title": "Rejection sampling estimates what inference reports", "statement": "With the same observations, a pass of get_samples returns a joint value exactly if the value matches the observations and the numbers drawn lie in its box; the share of the volume of the boxes with v = x in the volume of all boxes that are kept is the probability the join tree reports for v = x. get_samples can return exactly if the observations have positive probability; otherwise its loop never ends.", "quantifier": "all connected networks with normalized CPTs, all observations, all numbers drawn, all nodes and values, all iteration orders", "why_tests_cant": "statistical tests compare frequencies up to noise and cannot tell a small bias; relates two independent implementations for all networks and draws; non-termination is not testable", "anchors": ["pybbn/sampling/sampling.py:LogicSampler.get_samples", "pybbn/graph/jointree.py:JoinTree.update_evidences", "pybbn/graph/jointree.py:JoinTree.get_bbn_potential"]}
{"id": "C85", "title": "Deep copies of networks are independent, shallow copies are aliases", "statement": "copy.deepcopy(bbn) gives a network with the same nodes, CPTs, edges and bookkeeping; afterwards calls on the original and on the copy (add_node, add_edge, remove_node, assigning probs of a node), in any interleaving, change only the network they are made on. copy.copy(bbn) gives a second name for the same network: every call changes both.", "quantifier": "all programs that create, copy, deep-copy and edit any number of networks, all interleavings of the calls", "why_tests_cant": "aliasing shows only for particular sequences of calls on particular objects; a test covers one interleaving, the claim is about all programs", "anchors": ["pybbn/graph/graph.py:Graph.__copy__", "pybbn/graph/graph.py:Graph.__deepcopy__", "pybbn/graph/node.py:Node.__deepcopy__", "pybbn/graph/dag.py:Bbn"]}
{"id": "C86", "title": "Printed probabilities are the posteriors to five decimals", "statement": "print(join_tree.get_bbn_potential(node)) shows one line id=value|p per value, in the order of the node's values, where p is the exact posterior rounded to five decimals (nearest, ties to even). Larger posteriors are never shown as smaller numbers, numbers with at most five decimals are shown exactly, and the numbers shown for a node add up to 1 within half a unit of the last place per value. Tables of cliques and nodes print likewise, one line per row with the values by ascending id.", "quantifier": "all connected networks, all histories of evidence without ambiguous virtual evidence, all nodes whose values contain no line break; all numbers and tables", "why_tests_cant": "all numbers, ties and carries; every posterior after every history", "anchors": ["pybbn/graph/potential.py:Potential.__str__", "pybbn/graph/potential.py:PotentialEntry.__str__"]}
{"id": "C87", "title": "A printed network shows its nodes and edges", "statement": "The text of print(bbn) determines the nodes (id, name, values; in order) and the edges (in order of first insertion) of the network. The cliques printed for a join tree (and get_sid) do not depend on the iteration order of sets.", "quantifier": "all networks; all iteration orders", "why_tests_cant": "all names and values; separators inside names", "anchors": ["pybbn/graph/graph.py:Graph.__str__", "pybbn/graph/node.py:BbnNode.__str__", "pybbn/graph/node.py:Clique.__str__", "pybbn/graph/node.py:Clique.get_sid", "pybbn/graph/node.py:SepSet.__str__", "pybbn/graph/edge.py:Edge.__str__"]}
{"id": "C88", "title": "The cliques are the maximal cliques of a chordal graph", "statement": "The graph that Triangulator.triangulate leaves behind is chordal (every cycle of four or more nodes has a chord), the cliques it returns are exactly the maximal sets of pairwise adjacent nodes of that graph, and it adds no edge to the moral graph exactly when the moral graph is chordal already.", "quantifier": "all networks, all iteration orders of sets, all cycles and node sets", "why_tests_cant": "chordality is a statement about all cycles of all networks; that no needless edge is added depends on a theorem about chordal graphs (there is always a node whose neighbors are pairwise adjacent)", "anchors": ["pybbn/pptc/triangulator.py:Triangulator.triangulate", "pybbn/pptc/triangulator.py:Triangulator.duplicate", "pybbn/pptc/triangulator.py:Triangulator.select_node", "pybbn/pptc/triangulator.py:Triangulator.is_subset", "pybbn/pptc/moralizer.py:Moralizer.moralize"]}
{"id": "C89", "title": "Inference on polytrees needs no table larger than a CPT", "statement": "On a network with at most one undirected path between any two nodes every clique is a node together with its parents, no edge is added to the moral graph, and after apply and any history of evidence no table of the join tree has more rows than the CPT of some node. This applies to every network produced by generate_singly_bbn.", "quantifier": "all polytrees (connected or not), all iteration orders, all histories of evidence; all random draws of the generator", "why_tests_cant": "all polytrees and elimination orders; tests look at single networks", "anchors": ["pybbn/pptc/triangulator.py:Triangulator.triangulate", "pybbn/pptc/inferencecontroller.py:InferenceController.apply", "pybbn/generator/bbngenerator.py:generate_singly_bbn"]}
{"id": "C90", "title": "An observed Markov blanket screens a node off", "statement": "If all parents, children and other parents of the children of a node have a single possible value left by the evidence, the probabilities reported for the node are those computed from its CPT row, the CPT entries of its children and its own evidence alone. Other evidence, wherever in the network, has no influence as long as it is not impossible.", "quantifier": "all connected networks, all evidence histories (without ambiguous virtual evidence), all nodes and values, all iteration orders", "why_tests_cant": "relates a report to a local formula for all networks, whatever cliques the triangulation makes, and all evidence elsewhere", "anchors": ["pybbn/graph/jointree.py:JoinTree.update_evidences", "pybbn/graph/jointree.py:JoinTree.get_bbn_potential", "pybbn/pptc/inferencecontroller.py:InferenceController.apply"]}
{"id": "C91", "title": "Evidence about a node moves its report in the right direction", "statement": "If two sessions differ only in the evidence about one node, the odds between any two values of the node change by the ratio of the likelihoods. In particular, raising the likelihood of one value never lowers its reported probability and never raises that of another value of the node.", "quantifier": "all connected networks, all pairs of evidence histories (without ambiguous virtual evidence) that agree on the other nodes, all iteration orders", "why_tests_cant": "compares all pairs of sessions; a wrong sign or a stale likelihood shows only for particular evidence", "anchors": ["pybbn/graph/jointree.py:JoinTree.update_evidences", "pybbn/graph/jointree.py:JoinTree.get_bbn_potential", "pybbn/graph/jointree.py:Evidence.validate"]}
{"id": "C92", "title": "The flattened edges are the join tree", "statement": "get_flattened_edges lists every edge between a clique and a separation set of the join tree exactly once, clique first: two for every separation set, to two different cliques whose common nodes it holds. The list agrees with get_neighbors, has no cycle, and for a connected network it joins all cliques and separation sets.", "quantifier": "all networks, all sessions (apply, evidence, reapply, reading the tree back), all iteration orders", "why_tests_cant": "the edges are kept in a dictionary under string keys next to neighbour sets; the two representations agree only as an invariant of all ways to build a tree", "anchors": ["pybbn/graph/jointree.py:JoinTree.get_flattened_edges", "pybbn/graph/jointree.py:JoinTree.add_edge", "pybbn/graph/edge.py:JtEdge.get_lhs_edge", "pybbn/graph/edge.py:JtEdge.get_rhs_edge", "pybbn/graph/edge.py:SepSetEdge"]}
{"id": "C93", "title": "Inference and edge insertion work on networks of any size", "statement": "InferenceController.apply returns its join tree, and Dag.add_edge adds an acceptable edge, for networks of any size. In particular neither depends on how deep Python lets functions recurse: a run under a recursion limit gives the same result as one without, and never RecursionError.", "quantifier": "all networks for which apply works without a limit, all recursion limits, all iteration orders", "why_tests_cant": "quantifies over all network sizes and all limits; tests use networks of a few nodes, on which the recursion is shallow", "anchors": ["pybbn/pptc/inferencecontroller.py:InferenceController.apply", "pybbn/pptc/evidencecollector.py:EvidenceCollector.start", "pybbn/pptc/evidencedistributor.py:EvidenceDistributor.start", "pybbn/graph/jointree.py:PathDetector.exists", "pybbn/graph/dag.py:PathDetector.exists", "pybbn/graph/dag.py:Dag.__shouldadd__"]}
{"id": "C94", "title": "Generated multi-connected structures are uniform", "statement": "The structure of generate_multi_bbn is a uniform sample of the connected directed acyclic graphs on n nodes: as the number of iterations grows, the probability of each of them tends to one over their number (the algorithm of Ide and Cozman, which the documentation cites). A run finishes with probability one.", "quantifier": "all n >= 2, all connected acyclic structures on n nodes, all tolerances; all sequences of uniform independent draws, weighed by their probability", "why_tests_cant": "a statement about the limit of a Markov chain on all connected acyclic graphs; no number of sampled runs settles a distribution", "anchors": ["pybbn/generator/bbngenerator.py:__generate_multi_connected_structure__", "pybbn/generator/bbngenerator.py:__add_edge__", "pybbn/generator/bbngenerator.py:__del_edge__", "pybbn/generator/bbngenerator.py:__get_random_node_pair__", "pybbn/generator/bbngenerator.py:generate_multi_bbn"]}
{"id": "C95", "title": "Generated singly-connected structures are uniform", "statement": "The structure of generate_singly_bbn is a uniform sample of the polytrees on n nodes: as the number of iterations grows, the probability of each of them tends to one over their number. A run finishes with probability one.", "quantifier": "all n >= 2, all polytrees on n nodes, all tolerances; all sequences of uniform independent draws, weighed by their probability", "why_tests_cant": "a statement about the limit of a Markov chain; a test of a few structures cannot see that the chain is absorbed", "anchors": ["pybbn/generator/bbngenerator.py:__generate_singly_structure__", "pybbn/generator/bbngenerator.py:__find_predecessor__", "pybbn/generator/bbngenerator.py:__get_random_node_pair__", "pybbn/generator/bbngenerator.py:generate_singly_bbn"]}
{"id": "C96", "title": "Numbers of values and hyperparameters are sampled uniformly", "statement": "__generate_num_values__ gives every node a number of values that is uniform on 2 .. max_values, independently of the other nodes, and __generate_alphas__ gives hyperparameters that are independent and uniform on 1 .. max_alpha, as their documentation says.", "quantifier": "all numbers of nodes, all maxima, all lists of numbers; all sequences of uniform independent draws, weighed by their probability", "why_tests_cant": "a probability is not an observation; the bias towards two values is a factor of two that samples of a few nodes do not show", "anchors": ["pybbn/generator/bbngenerator.py:__generate_num_values__", "pybbn/generator/bbngenerator.py:__generate_alphas__"]}
{"id": "C97", "title": "Estimates from samples converge to what inference reports", "statement": "With the same observations, get_samples returns with probability one if the observations have positive probability, its samples are independent draws from the conditional distribution, and the relative frequency of v = x in N samples is off by eps or more from the probability the join tree reports with probability at most 1/(4 N eps^2).", "quantifier": "all connected networks with normalized CPTs, all observations, nodes, values, numbers of samples N and tolerances eps; all sequences of uniform independent random numbers, weighed by their probability", "why_tests_cant": "a statement about probabilities of unboundedly long runs of a rejection loop; a test draws with one seed and compares with a loose tolerance", "anchors": ["pybbn/sampling/sampling.py:LogicSampler.get_samples", "pybbn/sampling/sampling.py:Table.get_value", "pybbn/graph/jointree.py:JoinTree.get_bbn_potential"]}
{"id": "C98", "title": "Learning from samples recovers the network's reports", "statement": "Draw N samples from a network with LogicSampler, put them into a data frame under the names of the nodes, learn a network with the same structure with Factory.from_data and run inference on both: the probability that this fails, or that a reported probability is off by eps or more, is at most K/(N eps^2), where K depends on the network only. So the workflow of the documentation recovers every reported probability as N grows, also if some values or value combinations are rare or impossible.", "quantifier": "all connected networks with normalized CPTs (zeros allowed), all N, all tolerances eps, all iteration orders; all sequences of uniform independent random numbers, weighed by their probability", "why_tests_cant": "a test runs the workflow with one seed on one chain of three nodes and compares with tolerance 0.01; the claim is about all networks, and about probabilities", "anchors": ["pybbn/sampling/sampling.py:LogicSampler.get_samples", "pybbn/graph/factory.py:Factory.from_data", "pybbn/graph/jointree.py:JoinTree.get_posteriors"]}
{"id": "C99", "title": "Sampled marginals of a Gaussian vector have the reported parameters", "statement": "After any sequence of do_inference(s) calls, sample_marginals returns a series of the requested size for every variable that marginals lists; the series consists of draws from the normal distribution with the reported mean and variance, independent of the other series.", "quantifier": "all Gaussian vectors, all sequences of observations that succeed, all sizes, all random numbers", "why_tests_cant": "the claim concerns the distribution of what is drawn for every vector and history; tests look at the lengths or at sample means with a tolerance", "anchors": ["pybbn/gaussian/inference.py:GaussianInference.sample_marginals", "pybbn/gaussian/inference.py:GaussianInference.marginals", "pybbn/gaussian/inference.py:GaussianInference.P"]}
{"id": "C100", "title": "A Pdag is the mixed graph of the accepted edges", "statement": "After any sequence of add_node, add_edge and remove_node calls, edge_exists, directed_edge_exists, get_neighbors, get_parents and get_out_nodes describe the mixed graph of the accepted edges whose ends were not removed: get_parents lists the nodes with a directed edge into the node, get_out_nodes all other neighbours, and an edge is accepted iff its ends differ and are not joined yet and it closes no directed cycle (so an undirected edge is accepted regardless of the order of its ends).", "quantifier": "all finite sequences of calls with directed and undirected edges, all ids, all iteration orders of the neighbour sets", "why_tests_cant": "sequences of calls with mixed edges are unbounded; the tests only build small graphs and look at a few answers", "anchors": ["pybbn/graph/pdag.py:Pdag.get_parents", "pybbn/graph/pdag.py:Pdag.get_out_nodes", "pybbn/graph/pdag.py:Pdag.__shouldadd__", "pybbn/graph/pdag.py:Pdag.edge_exists", "pybbn/graph/pdag.py:Pdag.directed_edge_exists", "pybbn/graph/graph.py:Graph.remove_node"]}
{"id": "C101", "title": "Sampling with random numbers of finite precision", "statement": "numpy's uniform numbers are multiples of 2^-53, while CPT entries such as 1/3 are not. With numbers that are multiples of 1/M, the probability that a sample of LogicSampler has any given property differs from the probability in the network by at most S/M, where S is the number of values of all nodes together; with observations of probability P > S/M the relative frequency of v = x in N samples is off by eps + 2S/(MP) or more from what the join tree reports with probability at most 1/(4 N eps^2).", "quantifier": "all connected networks with normalized CPTs (any entries), all M (2^53 for doubles), observations, nodes, values, properties of joint values, N and eps; all sequences of independent random numbers uniform on the multiples of 1/M", "why_tests_cant": "the bias is of the order of 2^-50, far below what any number of samples drawn in a test can show, and a bound for all networks cannot be sampled", "anchors": ["pybbn/sampling/sampling.py:LogicSampler.get_samples", "pybbn/sampling/sampling.py:Table.get_value"]}
{"id": "C102", "title": "Evidence and builders stand for the calls made on them", "statement": "A program may create EvidenceBuilder and Evidence objects, change them with with_node, with_type, with_evidence and add_value, and hand the same piece of evidence to several join trees or several times. Every call on a tree then has the effect, and raises the exception, of a piece of evidence made anew with the node, type and likelihoods asked of that piece so far: building twice from one builder gives independent pieces, and handing a piece of evidence to a tree does not change what it says.", "quantifier": "all networks, all join trees of a network, all finite programs of such calls in any order, all likelihoods, all iteration orders", "why_tests_cant": "aliasing between builders, pieces of evidence and trees shows only in particular sequences of calls; the tests make a new builder for every piece and use it once", "anchors": ["pybbn/graph/jointree.py:EvidenceBuilder", "pybbn/graph/jointree.py:EvidenceBuilder.build", "pybbn/graph/jointree.py:Evidence.add_value", "pybbn/graph/jointree.py:Evidence.validate", "pybbn/graph/jointree.py:JoinTree.update_evidences", "pybbn/graph/jointree.py:JoinTree.set_observation"]}
{"id": "C103", "title": "d-separation is exact", "statement": "do.py finds every path between x and the nodes of ys inactive given zs if and only if, whatever values the nodes have and whatever their (normalized) CPTs are, evidence on ys never changes what get_posteriors answers for x once zs is observed. In particular, if some path is active there are values and CPTs for the same graph, and possible observations of zs and of one node of ys, such that the answer for x is not the same with and without the latter.", "quantifier": "all connected acyclic graphs with distinct names, all nodes x, all lists of nodes ys and zs without x and without a common node, all values and normalized CPTs, all evidence histories, all iteration orders", "why_tests_cant": "tests can only try some CPTs and some evidence; that no CPTs make a difference, or that some do for every graph with an active path, is a statement about all of them", "anchors": ["pybbn/causality/do.py:is_active_path", "pybbn/causality/do.py:get_all_paths", "pybbn/graph/jointree.py:JoinTree.get_posteriors", "pybbn/graph/dag.py:Dag.to_nx_graph"]}
{"id": "C104", "title": "from_data makes the data most likely", "statement": "Among all networks whose nodes are named like the columns, have the given parents, normalized CPTs and (at least) the occurring values, none gives the rows of the data frame a larger probability than the network returned by from_data; a network reaches the same probability only if every CPT entry that some row reads is the relative frequency in the data.", "quantifier": "all structures, all complete data frames whose cells do not name columns in a cycle, all networks with this structure (any ids, values, value orders and CPTs)", "why_tests_cant": "the maximum is over a continuum of CPTs; tests compare one learned table with expected numbers", "anchors": ["pybbn/graph/factory.py:Factory.from_data"]}
{"id": "C105", "title": "Small changes of the CPTs change the reports little", "statement": "If two networks have the same nodes and parents and their CPTs agree, entry by entry, up to a factor for each node (rounded or re-estimated probabilities), and k is the product of the factors, then after the same evidence calls the odds reported for any value of any node agree up to the factor k^2 and the reported probabilities differ by at most (k-1)/(k+1), which is the best possible bound.", "quantifier": "all connected networks, all factors, all CPTs that agree up to them, all finite histories of evidence calls (observations, virtual and soft evidence, retractions), all iteration orders", "why_tests_cant": "the bound is over a continuum of CPTs and all evidence; tests compare a few networks", "anchors": ["pybbn/pptc/inferencecontroller.py:InferenceController.apply", "pybbn/graph/jointree.py:JoinTree.get_bbn_potential", "pybbn/graph/jointree.py:JoinTree.update_evidences"]}
{"id": "C106", "title": "Reports lie between the entries of the CPT", "statement": "If CPT rows sum to one, no evidence about a node or about anything that descends from it is in force, and the evidence is possible, then the probability reported for a value of the node lies between the smallest and the largest entry for this value in the CPT of the node, whatever is known about the other nodes.", "quantifier": "all connected acyclic networks with normalized CPTs, all nodes and values, all finite histories of evidence calls, all iteration orders", "why_tests_cant": "all networks, CPTs and evidence; a test can only compare particular reports with particular tables", "anchors": ["pybbn/graph/jointree.py:JoinTree.get_bbn_potential", "pybbn/graph/jointree.py:JoinTree.update_evidences", "pybbn/pptc/inferencecontroller.py:InferenceController.apply"]}
{"id": "C107", "title": "get_ace is off by at most the dependence of the parents", "statement": "On a normalized connected acyclic network each number returned by get_ace(x, y, y_val) differs from the probability of y = y_val under the intervention on x by at most the total variation distance between the joint distribution of the parents of x and the product of their distributions (so it is exact for independent parents, and the bound is attained); the numbers lie between 0 and 1 and those for all values of y sum to at most 1, and to exactly 1 when x can take the value for all combinations of individually possible parent values.", "quantifier": "all connected acyclic networks with normalized CPTs and distinct names, all pairs of nodes and values, all histories of evidence before the call", "why_tests_cant": "an error bound for all networks; single examples only show single errors", "anchors": ["pybbn/causality/ace.py:Ace.get_ace"]}
{"id": "C108", "title": "Prediction follows from the parents, and influence fades along chains", "statement": "If CPT rows sum to one and no evidence about a node or about anything that descends from it is in force, then the report of the node is the average of the rows of its CPT, weighted with the probability of the parent values under the evidence - for a single parent, with the report of the parent. Hence along a chain of nodes, each with the one before as its only parent, two reports of the last node under different evidence differ (in total variation) by at most the reports of the first node multiplied by the largest distance between two rows of each CPT on the way.", "quantifier": "all connected acyclic networks with normalized CPTs, all nodes, values and chains of any length, all pairs of finite histories of evidence calls, all iteration orders", "why_tests_cant": "the bound is over all networks, chain lengths and evidence; a test compares two particular reports", "anchors": ["pybbn/graph/jointree.py:JoinTree.get_bbn_potential", "pybbn/graph/jointree.py:JoinTree.update_evidences", "pybbn/pptc/inferencecontroller.py:InferenceController.apply"]}
{"id": "C109", "title": "Small changes of the likelihoods change the reports little", "statement": "If two sessions on a network store for each node likelihoods that agree, up to a common multiple, up to a factor for each node, and k is the product of the factors, then the odds reported for any value of any node agree up to the factor k^2 and the reported probabilities differ by at most (k-1)/(k+1).", "quantifier": "all connected networks, all pairs of finite histories of evidence calls, all factors per node, all iteration orders", "why_tests_cant": "the bound is over a continuum of likelihoods for all networks; tests compare a few pairs of histories", "anchors": ["pybbn/graph/jointree.py:JoinTree.update_evidences", "pybbn/graph/jointree.py:Evidence.validate", "pybbn/graph/jointree.py:JoinTree.get_bbn_potential"]}
{"id": "C110", "title": "Join trees of any size can be copied and re-run", "statement": "copy.deepcopy(jt) returns a copy of the join tree, and reapply (which starts with such a copy) runs, for join trees of any size: the copies of nodes, cliques and separation sets that refer to each other are nested only so deep that Python's recursion limit is not exceeded.", "quantifier": "all networks on which apply works, of any size; all iteration orders; all evidence histories before the copy; all recursion limits", "why_tests_cant": "a test tries networks of some sizes under one limit; the claim is about every size and about the order in which objects are reached", "anchors": ["pybbn/graph/jointree.py:JoinTree.__deepcopy__", "pybbn/graph/node.py:Node.__deepcopy__", "pybbn/graph/edge.py:Edge.__deepcopy__", "pybbn/pptc/inferencecontroller.py:InferenceController.reapply", "pybbn/pptc/moralizer.py:Moralizer.moralize"]}
{"id": "C111", "title": "Generated networks can be sampled", "statement": "The network converted from what generate_multi_bbn or generate_singly_bbn returns can be handed to LogicSampler: get_samples returns samples, and each combination of values is drawn with the probability the network gives it.", "quantifier": "all n >= 1, max_iter, max_values >= 1, max_alpha >= 1; all random draws of the generator; all random draws of the sampler", "why_tests_cant": "a test tries a few seeds and sizes; the claim is about every structure the generator can produce and its probability", "anchors": ["pybbn/generator/bbngenerator.py:generate_multi_bbn", "pybbn/generator/bbngenerator.py:generate_singly_bbn", "pybbn/generator/bbngenerator.py:convert_for_exact_inference", "pybbn/sampling/sampling.py:LogicSampler.get_samples", "pybbn/sampling/sampling.py:LogicSampler.__init__"]}
{"id": "C112", "title": "Very small probabilities do no harm", "statement": "In Python's floats (53 significant bits, smallest positive number 2^-1074), however small the CPT entries and likelihoods are, apply and every later evidence call raise what exact arithmetic would raise, and get_bbn_potential(node) is the exact posterior up to the roundings that went into it.", "quantifier": "all connected networks with non-negative CPT entries, all histories of proper evidence, all iteration orders; all arithmetics that round correctly as long as results are zero or between 2^-E and 2^E", "why_tests_cant": "the claim is about every combination of magnitudes in tables and evidence; a test tries a few", "anchors": ["pybbn/graph/potential.py:PotentialUtil.multiply", "pybbn/graph/potential.py:PotentialUtil.divide", "pybbn/graph/potential.py:PotentialUtil.normalize", "pybbn/graph/potential.py:PotentialUtil.marginalize_for", "pybbn/graph/jointree.py:JoinTree.get_bbn_potential"]}
{"id": "C113", "title": "Rounding errors do not add up over a session", "statement": "However many evidence calls came before, the numbers get_bbn_potential reports in floats differ from the true posteriors by at most the unit roundoff times a number that depends only on the number of nodes and on the largest number of joint values of a clique (1665 roundings, an error below 2e-13, for five nodes and cliques with eight joint values); zeros are reported exactly where the posterior is zero. If moreover CPT entries and likelihoods are not too small for the size of the network, no intermediate result underflows.", "quantifier": "all connected networks, all histories of proper evidence of any length, all iteration orders, all unit roundoffs and all arithmetics that round every operation correctly", "why_tests_cant": "the bound holds for sessions of every length on every network; a test runs a few sessions of some length", "anchors": ["pybbn/graph/jointree.py:JoinTree.get_bbn_potential", "pybbn/graph/jointree.py:JoinTree.update_evidences", "pybbn/pptc/inferencecontroller.py:InferenceController.evidence_retracted", "pybbn/pptc/initializer.py:Initializer.initialize", "pybbn/pptc/propagator.py:Propagator.propagate", "pybbn/graph/potential.py:PotentialUtil.pass_single_message"]}
{"id": "C114", "title": "The same evidence gives the same numbers to the last bit", "statement": "Within a process, what get_bbn_potential(node) returns depends, to the last bit of the floats, only on the likelihoods now in force: two histories of evidence calls on a join tree that end with the same (unambiguous) likelihoods give identical numbers for every node, whatever was entered, changed and withdrawn before and in whatever order. In particular unobserve_all gives back exactly the numbers reported right after apply.", "quantifier": "all networks with usable CPTs (connected or not), all pairs of histories of proper evidence of any length, all iteration orders (fixed for the process), all arithmetics, rounding in any way", "why_tests_cant": "identity of floats has to hold for every pair of histories and every rounding; tests compare with a tolerance after a few histories", "anchors": ["pybbn/graph/jointree.py:JoinTree.get_bbn_potential", "pybbn/graph/jointree.py:JoinTree.update_evidences", "pybbn/graph/jointree.py:JoinTree.unobserve_all", "pybbn/pptc/inferencecontroller.py:InferenceController.evidence_retracted", "pybbn/pptc/initializer.py:Initializer.initialize", "pybbn/pptc/propagator.py:Propagator.propagate"]}
{"id": "C115", "title": "Minimal confounders and mediators are minimal", "statement": "get_minimal_confounders(g,x,y) returns a set that blocks the backdoor paths that are active without evidence and is minimal: leaving out any of its nodes unblocks such a path, and no smaller set blocks them all. get_minimal_mediators does the same for the directed paths. What is returned does not depend on the order in which sets are iterated.", "quantifier": "all DAGs, node pairs and set iteration orders", "why_tests_cant": "minimality quantifies over all subsets and all paths of all DAGs", "anchors": ["pybbn/causality/do.py:get_minimal_confounders", "pybbn/causality/do.py:find_minimal_confounders", "pybbn/causality/do.py:get_minimal_mediators", "pybbn/causality/do.py:find_minimal_mediator"]}
{"id": "C116", "title": "Virtual evidence can set a node's distribution (Jeffrey's rule)", "statement": "A caller who wants node w, which has no evidence, to have the distribution q sets virtual evidence with likelihoods proportional to q(y)/P(y), P being what is reported for w. Then exactly q is reported for w, and every other node v is reported with the average of what would be reported after observing each value of w, weighted with q. Every q that gives probability to values with a positive report only can be set this way.", "quantifier": "all connected networks, all earlier evidence, all nodes w with at least two values and no evidence, all target distributions, all iteration orders", "why_tests_cant": "an identity between infinitely many pairs of sessions and all target distributions; a test compares a few numbers", "anchors": ["pybbn/graph/jointree.py:JoinTree.update_evidences", "pybbn/graph/jointree.py:JoinTree.get_bbn_potential", "pybbn/graph/jointree.py:Evidence.validate", "pybbn/graph/jointree.py:EvidenceBuilder.with_evidence"]}
{"id": "C117", "title": "An intervention is an observation in the network without the edges into the node", "statement": "Build the network again without the edges into x and with any CPT for x that makes the value a possible. After observing x=a there (and after any evidence about other nodes) the reports are the probabilities of the original network when x is set to a, given that evidence (truncated factorization). In particular they agree with what get_ace computes from the original network wherever its adjustment is right (parents of x independent, see C38).", "quantifier": "all networks for which the network without the edges is connected, all nodes, values and priors, all earlier evidence without ambiguous virtual evidence, all iteration orders", "why_tests_cant": "relates the answers of two different networks for all CPTs and all evidence; a test compares a few numbers", "anchors": ["pybbn/graph/graph.py:Graph.add_edge", "pybbn/graph/dag.py:Bbn.__edge_added__", "pybbn/graph/jointree.py:JoinTree.get_bbn_potential", "pybbn/pptc/inferencecontroller.py:InferenceController.apply", "pybbn/causality/ace.py:Ace.get_ace"]}
{"id": "C118", "title": "get_edges of an undirected graph lists each connection once", "statement": "After add_node, add_edge and remove_node calls on a Ug, get_edges() lists one edge for each pair of different nodes add_edge was asked to join, in either direction, in the order of the first request; each printed as smaller id, two dashes, larger id. The pairs listed are exactly the pairs of neighbors.", "quantifier": "all sequences of calls on graphs with undirected edges", "why_tests_cant": "quantifies over all call histories, with removals and the same edge requested in both directions", "anchors": ["pybbn/graph/graph.py:Graph.add_edge", "pybbn/graph/graph.py:Graph.get_edges", "pybbn/graph/graph.py:Graph.remove_node", "pybbn/graph/edge.py:Edge.key"]}
{"id": "C119", "title": "Front-door adjustment gives the causal effect", "statement": "If by do.py every directed path from x to y leads through m, every path from x to m that starts with an edge into x is inactive without evidence, and every path from m to y that starts with an edge into m is inactive given x, then the probability of y when x is set to a (truncated factorization) can be computed from reports of the join tree alone, without observing any common cause of x and y: average over the values c of m, weighted with what is reported for m after observing x=a, the average over the values u of x, weighted with what is reported for x without evidence, of what is reported for y after observing m=c and x=u.", "quantifier": "all connected acyclic networks with normalized CPTs, all x, m, y and values for which the observed combinations are possible, all evidence histories that set the observations, all iteration orders", "why_tests_cant": "relates path activity, inference and interventions for all networks and CPTs; a test compares a few numbers", "anchors": ["pybbn/causality/do.py:is_active_path", "pybbn/causality/do.py:get_paths", "pybbn/graph/jointree.py:JoinTree.get_bbn_potential", "pybbn/graph/jointree.py:JoinTree.update_evidences"]}
{"id": "C120", "title": "Setting a node changes nothing for nodes that are not its descendants", "statement": "As long as there is no evidence about x and its descendants, what is reported for a node that is neither x nor a descendant of x is also its probability when x is set to any value, given the evidence (truncated factorization). So the network built without the edges into x, after the same evidence and after observing x there, reports the same for these nodes as the original network, in which x is not observed.", "quantifier": "all connected acyclic networks with normalized CPTs, all nodes and values, all histories of unambiguous evidence about nodes other than x and its descendants, all iteration orders", "why_tests_cant": "relates reports, descendants and interventions for all networks, CPTs and evidence; a test compares a few numbers", "anchors": ["pybbn/graph/jointree.py:JoinTree.get_bbn_potential", "pybbn/graph/jointree.py:JoinTree.update_evidences", "pybbn/graph/dag.py:Bbn.__edge_added__", "pybbn/causality/do.py:is_active_path"]}
{"id": "C121", "title": "Observations of a Gaussian vector never increase a variance", "statement": "With a covariance matrix without negative variances (positive semidefinite), after any sequence of successful do_inference(s) calls the variance P reports for a variable is not negative and not larger than before; it is unchanged exactly if the variable is uncorrelated with every observed variable, and then the reported mean is unchanged, too. The variances depend only on which variables were observed, not on the values, the order or the grouping into calls.", "quantifier": "all dimensions, all symmetric positive semidefinite matrices (also singular ones), all means, all sequences of successful calls", "why_tests_cant": "an inequality and its equality case over all matrices and sessions; a test compares a few numbers", "anchors": ["pybbn/gaussian/inference.py:GaussianInference.do_inferences", "pybbn/gaussian/inference.py:GaussianInference.do_inference", "pybbn/gaussian/inference.py:GaussianInference.P"]}
{"id": "C122", "title": "An observation never makes decisions worse on average", "statement": "Let every action have a utility for each value of v. The utility expected from an action by what the join tree reports for v equals the average, over the outcomes of observing w, of the utility expected from it by the reports after that outcome, weighted with what was reported for w. So choosing after each outcome an action that is then at least as good is at least as good on average as choosing without the observation, and strictly better exactly if for some outcome reported as possible a strictly better action is chosen. In particular guessing the most probable value of v is right with no smaller probability after the observation.", "quantifier": "all connected networks, all histories of unambiguous evidence without evidence about w, all v and w, all actions, utilities and decision rules, all iteration orders", "why_tests_cant": "an inequality over all networks, evidence and utilities and its equality case; a test compares a few numbers", "anchors": ["pybbn/graph/jointree.py:JoinTree.get_bbn_potential", "pybbn/graph/jointree.py:JoinTree.update_evidences", "pybbn/graph/jointree.py:JoinTree.set_observation", "pybbn/pptc/inferencecontroller.py:InferenceController.apply"]}
{"id": "C123", "title": "Propagation passes one message per separation set and direction, in an order that suffices", "statement": "A propagation (inside apply, and after every change of evidence) calls pass_single_message exactly once for every separation set and each direction, so 2(n-1) times for n cliques of a connected network. A clique sends a message to a neighbor only after it has received one from each of its other neighbors. For a disconnected network this holds for the component of the clique with the smallest id, and no other clique sends or receives anything.", "quantifier": "all networks, all iteration orders, all tables in the join tree, all histories of evidence", "why_tests_cant": "the order and number of calls over all trees; a test looks at a few trees and sees only the resulting numbers", "anchors": ["pybbn/pptc/propagator.py:Propagator.propagate", "pybbn/pptc/evidencecollector.py:EvidenceCollector.start", "pybbn/pptc/evidencecollector.py:EvidenceCollector.__walk__", "pybbn/pptc/evidencedistributor.py:EvidenceDistributor.start", "pybbn/pptc/evidencedistributor.py:EvidenceDistributor.__walk__", "pybbn/graph/potential.py:PotentialUtil.pass_single_message"]}
{"id": "C124", "title": "The names and the order of a node's values do not matter", "statement": "Two networks whose nodes have the same ids and the same values, possibly under other names and listed in another order, and whose CPTs have the same entry for the same values (whatever the order of parents and values): after the same history of evidence they report the same probability for the same value. The only thing that depends on the order of the values is an OBSERVATION that gives no value a positive likelihood; if only the names differ, that makes no difference either.", "quantifier": "all pairs of connected networks related this way, all histories of evidence operations that mention nodes and values of the network, all iteration orders", "why_tests_cant": "relates two networks for all permutations, names, CPTs and histories; a test compares a few numbers", "anchors": ["pybbn/graph/variable.py:Variable.__init__", "pybbn/graph/potential.py:PotentialUtil.get_potential_from_nodes", "pybbn/pptc/inferencecontroller.py:InferenceController.apply", "pybbn/graph/jointree.py:Evidence.validate", "pybbn/graph/jointree.py:JoinTree.update_evidences", "pybbn/graph/jointree.py:JoinTree.get_bbn_potential"]}
{"id": "C125", "title": "An observation never increases the uncertainty on average", "statement": "The entropy of what the join tree reports for v is at least the average, over the outcomes of observing w, of the entropy of what is reported for v after that outcome, weighted with what was reported for w. The two are equal exactly if no outcome of w that is reported as possible changes what is reported for v. The expected decrease (mutual information) is the same if the roles of v and w are exchanged. The first two statements hold for every strictly concave measure of uncertainty.", "quantifier": "all connected networks, all histories of unambiguous evidence without evidence about w (for the exchange: nor about v), all v and w, all iteration orders", "why_tests_cant": "an inequality over real logarithms for all networks and evidence, with its equality case; a test compares a few numbers", "anchors": ["pybbn/graph/jointree.py:JoinTree.get_bbn_potential", "pybbn/graph/jointree.py:JoinTree.update_evidences", "pybbn/pptc/inferencecontroller.py:InferenceController.apply"]}
{"id": "C126", "title": "An edge that says nothing changes no report, and makes a network in pieces exact", "statement": "Add an edge p -> c to a network and repeat every row of the CPT of c once for each value of p, so that c does not depend on p. In a connected network no report changes, after any history of evidence. A network in several pieces, for which the reports are wrong in general (C17), can always be connected by such edges without making a cycle, the join tree of the result can be built, and its reports are the exact posteriors of the original network.", "quantifier": "all well-formed networks, any number of such edges between any nodes, all histories of evidence (for the exactness: unambiguous evidence), all nodes, values and iteration orders", "why_tests_cant": "compares two networks with different join trees after all histories; a test tries some edges and some evidence", "anchors": ["pybbn/graph/graph.py:Graph.add_edge", "pybbn/graph/jointree.py:JoinTree.get_bbn_potential", "pybbn/pptc/inferencecontroller.py:InferenceController.apply"]}
{"id": "C127", "title": "A proxy never tells more than what it stands for", "statement": "Suppose that once m is known, w does not matter for v, which holds in particular if do.py finds every path between v and w inactive given m and the nodes already observed. Then what observing m is expected to leave of the uncertainty about v, by the reports, is at most what observing w is expected to leave, for the entropy and every strictly concave measure; the two are equal exactly if m does not matter for v once w is known either. Decisions made after observing m are on average at least as good as any decisions made after observing w.", "quantifier": "all connected networks, all histories of unambiguous evidence without evidence about m and w, all v, m and w, all utilities, all iteration orders (for the criterion with paths: acyclic networks with rows that sum to one, all histories of observations)", "why_tests_cant": "data processing inequality over real logarithms for all networks and evidence, with its equality case; a test compares a few numbers", "anchors": ["pybbn/graph/jointree.py:JoinTree.get_bbn_potential", "pybbn/graph/jointree.py:JoinTree.update_evidences", "pybbn/pptc/inferencecontroller.py:InferenceController.apply", "pybbn/causality/do.py:is_active_path"]}
{"id": "C128", "title": "Every intervention can be computed, also if it breaks the network in pieces", "statement": "To set a node x to a value a: build the network without the edges into x, with any CPT for x that makes a possible, and connect the pieces it falls into by edges that say nothing (C126). Such a network always exists and has no cycle, and its join tree can be built. After any history of evidence without evidence about x, and after observing x = a, what is reported is the probability in the original network when x is set to a, given the likelihoods stored for the other nodes; without other evidence it is the truncated factorization.", "quantifier": "all well-formed networks (for the existence: acyclic), all nodes x, values and CPTs for x, all ways of connecting, all histories of unambiguous evidence, all nodes and values, all iteration orders", "why_tests_cant": "compares the reports of one network with the interventional distribution of another, for all networks and evidence", "anchors": ["pybbn/graph/jointree.py:JoinTree.get_bbn_potential", "pybbn/graph/jointree.py:JoinTree.update_evidences", "pybbn/pptc/inferencecontroller.py:InferenceController.apply"]}
{"id": "C129", "title": "The example networks that come with the library are sound, and the simple one is the big one cut off", "statement": "BbnUtil.get_huang_graph() and BbnUtil.get_simple() return connected networks without cycles whose CPTs fit the parents and whose rows sum to one, so that everything claimed for such networks holds of them. Inference on the Huang network never fails to set up and reports 0.5, 0.45, 0.45, 0.68, 0.465, 0.176306, 0.415 and 0.8231 for a to h being on, whatever orders sets are iterated in. After the same history of evidence about a to f the two networks report the same probabilities for a to f.", "quantifier": "for all iteration orders of sets, and (third part) all histories of observations, virtual evidence and retractions about a to f", "why_tests_cant": "The library's own test runs one iteration order of one process and compares rounded numbers; the agreement of the two networks ranges over all histories of evidence.", "anchors": ["pybbn/graph/dag.py:BbnUtil.get_huang_graph", "pybbn/graph/dag.py:BbnUtil.get_simple", "pybbn/pptc/inferencecontroller.py:InferenceController.apply"]}
{"id": "C130", "title": "A network written to a JSON file is read back unchanged, whatever characters its names and values contain", "statement": "For every network built with add_node and add_edge, Bbn.from_json on the file written by Bbn.to_json gives a network with the same nodes in the same order (ids, names, values, CPTs), the same directed edges, neighbors and ordered parents, and writing it again gives the same text. Names and values may contain quotes, backslashes, control characters, commas, line breaks or any other characters. The file consists of printable ASCII characters and line feeds only, so neither encodings nor line ends matter.", "quantifier": "for all networks, all names and values, all CPTs", "why_tests_cant": "Quoting errors show only for particular characters in particular places; a test tries a few names.", "anchors": ["pybbn/graph/dag.py:Bbn.to_json", "pybbn/graph/dag.py:Bbn.from_json", "pybbn/graph/dag.py:Bbn.to_dict", "pybbn/graph/dag.py:Bbn.from_dict"]}
{"id": "C131", "title": "A network file that was cut off is never taken for a network", "statement": "If the process stops while it writes the file of a network, at whatever character, reading the file raises an exception. The same holds if an older, longer file was overwritten in place and its tail is still there.", "quantifier": "for all networks, all points at which writing stops, all tails", "why_tests_cant": "There are as many crash points as characters in the file, for every network.", "anchors": ["pybbn/graph/dag.py:Bbn.to_json", "pybbn/graph/dag.py:Bbn.from_json", "pybbn/graph/dag.py:Bbn.to_csv", "pybbn/graph/dag.py:Bbn.from_csv"]}
{"id": "C132", "title": "CPT entries that the evidence rules out do not matter, and an observed node can be cut from its children", "statement": "After any history of unambiguous evidence: if two connected networks over the same nodes have the same CPT entries at every joint assignment to which the stored likelihoods give no zero, they report the same probabilities, whatever the other entries and whatever their edges. In particular, after a node has been observed the edges from it can be removed if each child keeps the CPT rows for the observed value only: all reports stay the same, also after further evidence.", "quantifier": "for all pairs of networks, histories of evidence, nodes and values", "why_tests_cant": "The rows that are ruled out must be irrelevant for every network, row and combination of evidence; a leak through a zero (for instance by the guarded division) shows only for particular tables.", "anchors": ["pybbn/pptc/inferencecontroller.py:InferenceController.apply", "pybbn/graph/jointree.py:JoinTree.set_observation", "pybbn/graph/jointree.py:JoinTree.get_bbn_potential", "pybbn/graph/potential.py:PotentialUtil.divide"]}
{"id": "C133", "title": "A join tree saved as JSON text answers like the original network when it is loaded again, and is never loaded from a damaged text", "statement": "For every join tree of a session on a connected network (fresh, or after evidence, reapply or an earlier round trip): from_dict(json.loads(json.dumps(to_dict(jt, bbn)))), with or without indentation, followed by apply_from_serde, gives a join tree with the same cliques and separation sets, no evidence, and exact answers to every later history of evidence, whatever characters names and values contain. If the text was cut off anywhere, or anything but blanks follows it, loading raises ValueError.", "quantifier": "for all connected networks, sessions, texts of names and values, iteration orders, points at which the text is cut off, tails", "why_tests_cant": "Keys, nesting and quoting must fit for every network and every cut; a test has one file.", "anchors": ["pybbn/graph/jointree.py:JoinTree.to_dict", "pybbn/graph/jointree.py:JoinTree.from_dict", "pybbn/pptc/inferencecontroller.py:InferenceController.apply_from_serde"]}
{"id": "C134", "title": "The order of the items in a JSON file of a network does not matter", "statement": "Take any text that json.loads reads as the document Bbn.to_json writes for a network, except that dictionaries, at any depth, may list their items in another order, whole numbers may be written without a fraction, and the layout is arbitrary: what json.dumps(..., sort_keys=True), a database or JavaScript makes of it. Bbn.from_json reads from it a network with the same nodes (ids, names, values, CPTs), the same edges and neighbours and the same ordered parents; inference on it runs and gives the same answers to every history of evidence.", "quantifier": "for all networks, all reorderings at all depths, all layouts, all indentations for sorted keys, all histories of evidence, all iteration orders", "why_tests_cant": "The nodes of the loaded network come in another order, so that moral graph, elimination order and join tree may all differ; a test compares one file.", "anchors": ["pybbn/graph/dag.py:Bbn.from_json", "pybbn/graph/dag.py:Bbn.from_dict", "pybbn/graph/dag.py:Bbn.to_dict", "profile/generate-multi-bbn.py"]}
{"id": "C135", "title": "Join tree files whose items come in another order load as the same tree", "statement": "Let t be any text that json.loads reads as the document json.dumps(JoinTree.to_dict(jt, bbn)) writes for a join tree of a connected network, except that the items of its dictionaries may come in another order at any depth, the layout may differ and whole numbers may be written without a fraction. This includes json.dumps(..., sort_keys=True, indent=2), which the documentation uses and which sorts nodes by id and cliques by their id strings. Then JoinTree.from_dict(json.loads(t)) followed by apply_from_serde gives a tree with the same cliques, the same separation sets between the same cliques, the same neighbours and no evidence, and from then on exact answers to every history of evidence.", "quantifier": "For all connected networks, all join trees of a session on them (fresh, after evidence, reapply or an earlier round trip), all texts that say the same, all iteration orders of sets, all later histories of evidence.", "why_tests_cant": "There are infinitely many ways to reorder and lay out a document; a test tries one. The order of the nodes decides in which order cliques, separation sets and potentials are rebuilt, so that the answers do not depend on it is a fact about the whole algorithm.", "anchors": ["pybbn/graph/jointree.py:JoinTree.to_dict", "pybbn/graph/jointree.py:JoinTree.from_dict", "pybbn/pptc/inferencecontroller.py:InferenceController.apply_from_serde", "docs/source/code/jt-serialization.py"]}
{"id": "C136", "title": "libpgm networks in JSON text are converted exactly, and nothing is made up", "statement": "Let t be any text that json.loads reads as the document of a libpgm discrete network, with items in any order, with further items (numoutcomes, children) and with numbers in any spelling. Then Factory.from_libpgm_discrete_json(t) succeeds; the network has the nodes of the document by ascending number, with the document's parents in its order, and its tables give, for all values of the parents, the row the document stores under these values; for connected documents without negative entries the posteriors reported under each name are the marginals the document defines. Conversely, whenever the conversion succeeds, t is JSON and holds such a document with an entry for every node and a row for all values of the parents of every node. A text cut off anywhere, or followed by anything but blanks, raises ValueError.", "quantifier": "for all texts, documents, networks, layouts, item orders, further items, points at which the text is cut off, tails, iteration orders of sets", "why_tests_cant": "A test converts one file; which of the infinitely many spellings and layouts of a document give the same network, and that no damaged document is accepted, are statements about all texts.", "anchors": ["pybbn/graph/factory.py:Factory.from_libpgm_discrete_json", "pybbn/graph/factory.py:Factory.from_libpgm_discrete_dictionary", "pybbn/graph/factory.py:Factory.from_libpgm_discrete_object"]}
{"id": "C137", "title": "Join tree files of earlier versions, with empty parent lists, load as the same tree", "statement": "Earlier versions of the library also wrote an empty list of parents for nodes without parents; docs/source/code/simple-join-tree.json is such a file, and the pinned code no longer writes these entries. Let t be any text that json.loads reads as the document of a join tree of a connected network with such empty lists added under \"parent_info\" for any nodes without parents (or for ids that are not in the network), items in any order, any layout. Then JoinTree.from_dict(json.loads(t)) followed by apply_from_serde gives the same cliques, the same separation sets between the same cliques, the same neighbours and no evidence, and from then on exact answers to every history of evidence.", "quantifier": "For all connected networks, all join trees of a session on them, all sets of nodes without parents for which empty lists were written, all texts that say the same, all float texts, all set iteration orders and all later histories of evidence.", "why_tests_cant": "Tests load the few files that are at hand; compatibility with files of earlier versions is about all networks and all join trees that were ever saved.", "anchors": ["pybbn/graph/jointree.py:JoinTree.from_dict", "pybbn/graph/jointree.py:JoinTree.to_dict", "pybbn/pptc/inferencecontroller.py:InferenceController.apply_from_serde", "docs/source/code/simple-join-tree.json"]}
{"id": "C138", "title": "The order of the lines of a CSV file does not matter, and no line is passed over", "statement": "Let Bbn.from_csv read a network from a CSV file in which no two node lines have the same id. Let another file have lines that say the same in another order (edges before nodes, nodes sorted, lines shuffled), possibly with blanks around the fields, other line ends or other spellings of the numbers, such that the edges into one node keep their order among themselves. Then from_csv reads from it a network with the same nodes, the same edges and the same ordered parents, and join trees of the two networks give the same answers to every history of evidence. Whenever from_csv succeeds, every line of the file is about a node or an edge, the nodes of the network are exactly those of the file, and the parents of each node are those of its edge lines by first occurrence. If two edges into one node are exchanged, the CPT is read in another order and the answers may differ.", "quantifier": "For all pairs of file contents, all float texts, all set iteration orders and all histories of evidence.", "why_tests_cant": "The law is about all files and all reorderings of their lines; tests read single files that the library wrote itself.", "anchors": ["pybbn/graph/dag.py:Bbn.from_csv", "pybbn/graph/dag.py:Bbn.to_csv"]}
