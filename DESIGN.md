# A Lean 4 model of py-bbn and its proofs

Layout (all under `lean/Verif/`):

* `Model/`  – the model of the code, function by function; every definition cites the lines of `/repo/pybbn` it models.
* `Spec/`   – small specification definitions (joint distribution, reachability, d-connection, truncated factorization, conditional
  Gaussian, relative frequencies, …) that do not mention the model's helpers.
* `Proofs/` – helper lemmas.
* `Props/`  – the property theorems, each with a concrete case that meets its hypotheses, and the counterexamples.
* `Tests/`  – the model evaluated on the inputs and expectations of the repository's own unit tests (not proofs of properties).

`properties.jsonl` lists the properties, `MANIFEST.json` says which theorems prove which property, `seeded/LOG.jsonl` records the
experiments with deliberately wrong models.

Naming: `cNN_…` belongs to property CNN. `…_partial` proves part of the statement in `properties.jsonl`; its comment says what is missing.
`cNN_false…` proves, with a concrete witness, that the full statement does not hold of the code.

## Trusted base

* Lean 4.33.0's kernel, and the axioms `propext`, `Classical.choice`, `Quot.sound` (each property theorem depends on a subset of these
  three; no others, no `sorry`, no `native_decide`, no `bv_decide`). Concrete witnesses are evaluated with `decide`, `decide +kernel` or
  `rfl`, that is by the kernel.
* Fidelity of the model, read by hand from the source (the code cannot be run in this sandbox). As a check on the reading, `Tests/`
  evaluates the model on the repository's unit tests (`/repo/tests`: moralization, triangulation, join trees, potentials, all inference
  tests, graphs, serialisation, sampling tables and order, libpgm and `from_data`, `Ace`) and compares with the numbers asserted there;
  every one of them is met (for `test_transformer` to the letter, with sets of small integers iterated in ascending order). Tests that depend
  on random numbers or object identity are left out.
* The assumptions about Python and libraries listed below.

## Modelling conventions

* Python `str` is a list of characters (`Str`), `int` is `Int`, `float` is an exact rational `ℚ`. Overflow, NaN and infinity
  are **not** modelled (underflow only in C112). Rounding is modelled for inference and for sampling tables: `Model/Arith` repeats the functions that compute with tables over an arbitrary
  arithmetic, of which exact rationals and floats that round after every operation are instances (C70); the comparisons of likelihoods that
  decide whether evidence has changed stay exact. Sampling tables take the cumulative sum
  as a parameter (exact, or rounding after every addition: C76). Everywhere else (Gaussians, generators) arithmetic is exact; in particular
  `np.linalg.inv` is exact. Dividing plain Python floats by zero raises `ZeroDivisionError` where the code does so.
* `dict` is an insertion-ordered association list. `set` is a duplicate-free list together with an *iteration oracle*: every place where the
  code iterates over a set applies an arbitrary permutation supplied by the environment (`SetIter`), so the theorems hold for every hash
  seed and set layout. (One oracle per kind of element and call; the oracle is a function of the list, so that it may differ between sets.)
* Exceptions are values (`Except PyErr`); for calls that mutate before raising, the model returns the mutated state too
  (`JoinTree.Outcome`). `numpy.linalg.LinAlgError`, `networkx` exceptions and plain `Exception` are `PyErr.exception`.
* Object identity: a BBN node is identified with its id. Mutable attributes of node objects (`potential`, `metadata`) are an explicit
  component of the state so that leftovers from earlier calls are visible (C29). Most modules give every join tree objects of its own; `Model/Shared` lets
  all join trees of a network share them, and shares the lists of `bbn.parents` with `join_tree.parent_info` (C69). The effect of an
  `apply` that raises on the shared objects is not modelled. Networks are values everywhere except in `Model/NetCopy`, where they are objects that can be
  copied and aliased; C85 shows that the value model is what each variable of a program sees. Pieces of evidence are values everywhere except in `Model/EvObj`,
  where builders and pieces of evidence are objects that calls change in place; C102 says when the value model is what programs see.
* Recursion is bounded by a fuel argument computed from the size of the input; the theorems show that it never runs out. Python's own
  recursion limit is a parameter in `Model/Limit` (C93) and `Model/CopyLimit` (C110: nested copies of nodes, cliques and separation sets) and is left out everywhere else. There a limit counts the nested calls of the recursive function
  alone; the few frames of its callers and callees are not counted.
* Nodes of a network given to inference have pairwise different values (`NodeOk` where needed); evidence theorems assume that evidence
  names nodes and values of the network where they say so, the error cases have theorems of their own (C22, C27).
* Library functions:
  * `itertools.product`, `sorted`, `bisect`, `str.split/strip/join`, `str(int)` are written out.
  * `sorted` with a comparator (`LogicSampler`): the contract `PySort` (a permutation; sorted if the comparator is a strict total
    order), plus CPython's binary insertion sort for fewer than 64 elements for the counterexamples.
  * JSON: `Model/Json` writes out `json.dumps` and `json.loads` character by character (C130, C131); NaN, infinities, lone surrogates and the
    recursion limit are left out. The older modules use the document that `json.loads` gives back: integer keys become strings, everything else
    is unchanged. `copy.deepcopy` is the identity.
  * CSV: the file is its text; `str(float)`/`float(str)` is a pair of functions with `float(str(p)) = p` whose texts contain no separator
    (`FloatText`); reading translates line ends (universal newlines). Encodings are not modelled.
    `int(str)` accepts blanks around, a sign and single underscores, as Python does, but not the digits of other scripts.
  * `networkx`: `DiGraph` keeps nodes and edges in insertion order; `successors`, `descendants`, `ancestors`, `all_simple_paths`,
    `is_connected`, `is_directed_acyclic_graph`, `shortest_path` are modelled by what they are documented to do;
    `topological_sort` is written down from its source.
  * `numpy.random.uniform` values are an input of the sampler; `numpy.random.randint` takes raw draws from a list, `scipy.stats.dirichlet` is
    any function returning positive vectors that sum to one. Nothing is assumed about the distribution of draws; the properties about
    probabilities of samples (C33, C50) speak about lengths of intervals. Only C94–C98, C101 and C111 weigh runs by their probability: there raw draws are
    independent and uniform on `0 … M-1` for any `M` that is a multiple of the ranges asked for, and the probability of a result is the limit of
    the share of draw lists that lead to it (`Spec/Chance`); for C97 and C98 the random numbers are uniform on `0, 1/M, 2/M, …` for any common denominator
    `M` of the CPT entries (every network has one, `exists_grid`); C101 drops this condition: any `M`, in particular `2^53`.
  * numpy integers carry a tag, since `json.dumps` rejects them (C57).
  * `pandas`: data frames are complete, have string cells without quotes and backslashes and pairwise different identifier column names; then
    `df.query` keeps exactly the rows with the given values.

## What is modelled and what is not

Modelled: `graph/` (`variable`, `node`, `edge`, `graph`, `dag`, `pdag`, `potential`, `jointree`, `util`, `factory`), all of `pptc/`,
`sampling/`, `causality/` (`ace`, `do`), `generator/`, `gaussian/`.

Not modelled: `__repr__` of `GaussianInference`, `__str__` of `Variable`, `SepSetEdge` and `NodeClique`; file system errors other than a file that is cut off (C131);
`Ace` evidence for nodes that do not exist is only treated in the `KeyError` theorems (a `None` node never reaches the arithmetic);
timing and concurrency.

## Properties and plan

| id | what is modelled | how it is proved |
|----|------------------|------------------|
| C01 | `Graph.add_node/add_edge/remove_node`, `Dag.__shouldadd__`, `PathDetector` | invariant over operation sequences: the edge relation has no cycle |
| C02 | same | DFS soundness and completeness; decision stated outright |
| C03 | `Bbn.add_edge` | false; partial: the edges are exactly those requested, so acyclic iff the requests are |
| C04 | `Graph` | invariant over operation sequences |
| C05 | `Graph.remove_node` | false for `get_edges`; partial for nodes and neighbors |
| C06 | `Pdag` | invariant |
| C07 | `Bbn.__edge_added__` | refinement to "first insertion order" |
| C08 | `Clique`, `SepSet` id strings | injectivity of join/str, then decoding by descents |
| C09, C10, C11 | `PotentialUtil` | list induction |
| C12 | `Moralizer` | fold invariants |
| C13 | `Triangulator` | elimination-game invariant |
| C14 | `Transformer`, `JoinTree.add_edge`, `PathDetector` | Kruskal invariant; rank argument |
| C15 | same + C13 | maximum-weight spanning forest counting argument |
| C16 | whole `InferenceController.apply` pipeline | algebra of variable elimination on a rooted tree extracted from the traversal |
| C17 | same | false (only one component is propagated); partial: component of the first clique and single-clique components, after every evidence history; every report on every network in closed form (`c17_near_law`, `c17_far_law`, spec `Spec/Local.lean`); elsewhere evidence stays within the cliques of its node |
| C20 | whole pipeline, two runs with different set orders | same cliques up to permutation (C54), same assigned cliques, same component of the start clique |
| C18, C19, C21, C24, C25 | evidence operations as a state machine over the join tree | invariant "tables are calibrated for the likelihoods of the last propagation" by induction over histories, also through failing operations |
| C22, C23, C26 | `Evidence.validate/compare`, `set_observation` | case analysis; C26 also as an exact rule for `update_evidences` after any history (`c26_exact`, from `evOp_law`) |
| C27 | `update_evidences` with exceptions | counterexample, partial, exact law: which updates raise and what they leave stored |
| C28, C29 | `reapply`, repeated `apply` | sessions; on networks that need not be connected the reapplied tree is compared with a fresh tree over all histories (`c28_any_network`: same cliques as sets of nodes, same families placed in the same clique, hence the same reports); C29 has a counterexample (stale `parent.clique`) |
| C30 | `JoinTree.to_dict/from_dict` | round trip of the whole state for connected networks; for the others the reloaded tree is compared with a fresh tree over all histories (`c30_reloaded_partial`); a tree with edges and isolated cliques reads back as a tree of the network restricted to the surviving nodes (`c30_lost_law`), and nodes are lost exactly in that case (`c30_keeps_iff`) |
| C31, C32 | `Bbn.to_dict/from_dict/to_csv/from_csv` | round trip induction |
| C33–C37, C50 | `Table`, `LogicSampler` with the random stream as input | inverse CDF on intervals; induction over the visiting order |
| C38 | `Ace.get_ace` | composition of session theorems; truncated factorization as specification |
| C39–C41, C55 | `do.py` | path induction |
| C42, C43, C59 | `GaussianInference` with Mathlib matrices | Schur complement algebra; specification by regression coefficients, related to densities in `c42_density` |
| C44 | `Factory.from_libpgm_discrete_*` | row indexing, then C16 (`Named.exact`) |
| C45, C60 | `Factory.from_data` | Kahn's algorithm exact; row indexing with parents sorted by name; then C16 |
| C46–C48, C57, C58 | `bbngenerator` with random choices as input | invariants: DAG and connected; tree by edge counting |
| C49 | `IdUtil.hash_string` | list induction |
| C51 | `Bbn.get_i2n/get_n2i` | list induction |
| C52, C53 | exact inference | summing out in reverse topological order |
| C54 | `Triangulator` | refinement to a deterministic greedy elimination; sets compared up to permutation |
| C62 | `Dag.to_nx_graph` | fold invariants |
| C63 | `do.py` path activity with inference | an open path from connection in the moral graph of the ancestors; the joint weight factorizes over the components |
| C64 | back-door criterion | d-separation with the edges out of `x` removed; the weight with and without the CPT of `x` factorizes alike |
| C65 | `get_all_confounders` | from C41; `c65_iff` says exactly when the returned set is valid |
| C66 | `Graph.remove_node` on a `Bbn`, then `apply` / `to_dict` | dictionary equalities for isolated nodes; the stray node reaches a clique and has no potential |
| C67 | `Potential.to_dict`, `get_kv` | splitting a key at the bars; rows of the tables from C09 / C19 |
| C68 | `Bbn.to_dne` | a reader of statements (Spec/Dne) undoes the text; product of the entries it selects |
| C69 | `apply`, `reapply`, evidence on shared node objects | simulation: initializing with known parent cliques gives the same tree; invariant over programs |
| C70 | tables, messages, `apply`, evidence calls over any arithmetic | three runs in lockstep (exact, float, number of roundings) for a relation closed under the operations |
| C71–C75 | exact posteriors (C18) for pairs of networks and histories | sums over assignments under renaming, summing out one node or, in reverse order of ancestry, all nodes outside a closed set; the propagation law of C18 commutes with renaming |
| C76 | `Table`, `LogicSampler` over any cumulative sum | monotone float sums; the perturbed rows are the differences of the float sums, cut at one; tables that answer alike give equal runs |
| C77–C80 | exact posteriors (C18) for pairs of histories or networks | products of likelihoods factor out; zeros of sums of nonnegative weights; induction over the observations; sums over permuted variable lists |
| C81 | `generate_bbn_to_file`: generator (C40s), `convert`, CSV/JSON writer and reader composed (`Model/GenFile.lean`); both files are texts, character by character | reload lemmas of the two formats; same nodes and parents ⇒ same joint distribution |
| C82 | `reapply` (C28) for a family of CPTs | one factor of each joint weight is affine in t, hence mass and total are; monotonicity of fractions of affine functions |
| C83 | `get_bbn_nodes`, `get_bbn_node`, `get_bbn_node_by_name`, `get_posteriors` on all states of a session | dictionaries built in a loop: the last entry under a key wins; all nodes are in some clique |
| C84 | `get_samples` (C36, C50) and a session with observations (C18) together | the box of a joint value has the joint probability as volume; likelihoods of observations are indicators; intervals of positive width contain their lower end |
| C85 | `Model/NetCopy`: a network is five container addresses, containers hold references to node objects; `__copy__` copies the addresses, `__deepcopy__` the containers and, through its memo, every reachable node object once. Not modelled: assignments to `Variable` attributes, `potential`, `metadata`, node objects shared by two networks that are not copies | refinement of networks as values: disjointness of containers and reachable objects is an invariant of every program |
| C86 | `Model/Text`: `Potential.__str__`, `"{:.5f}"` | a reader of tables (Spec/Printed) undoes the text; nearest decimal; posteriors from C18 |
| C87 | `Model/Text`: `Graph.__str__` with the `__str__` of nodes, edges, cliques, separation sets | the reader undoes the text; cliques as sets from C54 |
| C88 | `Triangulator.triangulate` | induction over the elimination game (chordal; every complete set is covered); Dirac's theorem for "no edge added" (Spec/Chordal, Proofs/Dirac) |
| C89 | the same, `apply`, histories, `generate_singly_bbn` | families in a polytree: chordal and Helly; C88 and the antichain give clique = family; sizes from C19's tables |
| C90 | histories of evidence; spec `Blanket`, `Bbn.blanketScore` | exact posteriors (C18); the joint weight splits into the CPTs of the node and its children and a factor that does not mention the node; where that factor is not 0 the blanket has its observed values |
| C91 | histories of evidence | exact posteriors (C18); the likelihood of a value is a factor of its mass, the other factor does not depend on the evidence about the node |
| C92 | `JoinTree.get_flattened_edges`, `JtEdge`, `SepSetEdge` (`Model/Flatten.lean`) | the edge dictionary holds the separation sets (invariant `EdgesOk` of sessions); shape of the tree as in C14 |
| C93 | `PathDetector.__find__`, `EvidenceCollector.__walk__`, `EvidenceDistributor.__walk__` with the number of nested calls that fit as a parameter (`Model/Limit.lean`) | a limited run is cut off or agrees with the unlimited one (`Cut`); collecting that ends has reached every clique within limit + 1 steps, while the cliques of a long chain lie far apart |
| C94 | `__generate_multi_connected_structure__` on uniform raw draws; the probability of a result is the limit of the share of draw lists (`Spec/Chance`) | one pair of nodes acts on the connected acyclic edge sets as an involution, so the number of structures is preserved; every structure can be reached from the chain (orders, neighbouring transpositions through a third node); one pair leaves the chain alone; hence the values of the mean contract (`Proofs/RandomWalk`) |
| C95 | `__generate_singly_structure__` on uniform raw draws | in-stars never change; from every polytree a sink can be given one more predecessor after rotating the predecessors with exchanges that are taken back; a finite walk is absorbed |
| C96 | `__generate_num_values__`, `__generate_alphas__` on uniform raw draws | first-draw recursion for shares; residues of a multiple |
| C97 | `LogicSampler.get_samples` on uniform passes (`Spec/SampleChance`) | rejection: recursion over the first pass, the kept passes are uniform on those that can be kept (`Proofs/Reject`); counting grid points in the box of a joint value; variance of a sum of independent terms; C36 and C84 |
| C98 | `LogicSampler.get_samples`, `pd.DataFrame(samples).rename` (`sampleFrame` in `Spec/Learn`), `Factory.from_data`, `apply`, `get_posteriors` | Chebyshev and a union bound over the values of all families (C97); quotients, products and sums of nearby numbers; an impossible joint value has a family that is impossible although its parents are possible, so its learned weight is exactly 0; C45 for the learned network |
| C99 | `GaussianInference.sample_marginals` (`Model/GaussSample`; reals, `np.random.normal(m, s)` is `m + s z` for the next standard normal number `z`) | recursion over the marginals; C59, positive definiteness is kept (C42) |
| C100 | `Pdag` with `remove_node` (`Model/Graph`); spec `Spec/Mixed` | refinement: induction over the calls, the edge map is the relation "arrow or line" of the mixed graph; path detector exactness from C06 |
| C101 | `LogicSampler.get_samples` with numbers `k/M`, any `M` | count of grid points in an interval is within one of its length times `M`; products of conditional distributions differ by at most the sum of the differences (induction along the topological order); Chebyshev as in C97 |
| C102 | `EvidenceBuilder`, `Evidence` as mutable objects, `update_evidences` and `set_observation` on them (`Model/EvObj.lean`) | refinement: the objects and the calls made on them (`Spec/EvObj.lean`) are related by an invariant over programs; `validate` keeps the likelihoods a piece stands for, and later `add_value` calls keep the relation when the piece is reusable |
| C103 | `do.py` path activity with inference, as C63 | conditional distributions that make the ends of an open path dependent, built along an order of the nodes with children first: a child copies its parent, the two parents of an observed node get a CPT of that node that couples two models placed side by side; the distributions are written into CPTs of the same graph, and C63 gives the other direction |
| C104 | `Factory.from_data` as C45, the joint distribution of a network (`Spec/Likelihood.lean`) | Gibbs' inequality from `x ≤ exp (x - 1)` (over ℝ, cast back to ℚ); per node the ratios of a table to the relative frequencies average to at most 1 over the rows; products over rows and nodes exchanged; C45 says that the learned tables are the relative frequencies |
| C105 | as C18 | weights agree up to the product of the factors, hence the odds up to its square; the bound on the difference from `4 r (1 - r') ≤ (1 - (r' - r))²`; C18's law says that both trees report posteriors for the same likelihoods |
| C106 | as C18 | the likelihoods are a function of the other nodes; summing out what descends from the node makes the report an average of CPT entries (as C53); stored likelihoods 1 are also propagated as 1 (as C24), so ambiguous evidence does no harm here |
| C107 | `Ace.get_ace` as C38 | C38 gives the number as an average of conditional probabilities under the product of the parents' distributions, back-door adjustment for the parents gives the effect as the average under their joint distribution; averages of numbers between 0 and 1 differ by at most half the sum of the differences of the weights |
| C108 | as C106 | the likelihoods are a function of the other nodes (as C106); summing out the descendants leaves the CPT entry times the belief in the parents; a matrix with rows at most `δ` apart shrinks differences that sum to zero by `δ`; induction along the chain |
| C109 | as C77 and C105 | the stored likelihoods are those of C18's law; weights agree up to the product of the factors and one multiple, which cancels; then as C105 |
| C110 | `copy.deepcopy` of nodes, cliques, separation sets and edges with its memo and the number of nested copies that fit as a parameter (`Model/CopyLimit.lean`) | with a nested copy left for every object not yet copied nothing is cut off; on a chain n → … → 0 the first clique copied is that of node 0 (greedy elimination, C54) and each node leads on to its parent |
| C111 | `generate_multi_bbn`/`generate_singly_bbn` → `convert_for_exact_inference` → `LogicSampler` → `get_samples`, composed from the models of C50, C94 | converted networks are samplable with ascending parents, so everything hinges on the order (`getSamples_raises`: a child before a parent raises on every draw); limits over `max_iter` from the uniform limits of the generator; three nodes are settled exactly by classifying all 18 structures |
| C112 | the programs of C70 over an arithmetic that is only correct for results in a range (`Spec/Underflow.lean`) | lockstep as for C70; the third run counts roundings and binary orders of magnitude from those of the inputs, the relation says nothing once the count leaves the range |
| C113 | the counts of C70 and C112 bounded by a polynomial in the number of variables and the largest number of rows (`Spec/RoundBound.lean`) | every evidence call either leaves the tables or rebuilds them from scratch (C26), so only one initialisation and one propagation count; costs of the inputs add up over cliques during initialisation, over messages towards the root during collection and along paths during distribution (`Proofs/RoundCount`, `RoundPass`, `RoundInit`, `RoundRun`) |
| C114 | the programs of C70 over any arithmetic; likelihoods are kept exactly (storing, clipping and comparing floats does not round) | two runs in lockstep that share the tree, the cliques and tables of the nodes and the likelihoods: initialisation and propagation give equal tables (`Proofs/Bitwise`); the tables after a history are always those of a rebuild with the likelihoods last seen |
| C115 | `get_minimal_confounders`, `get_minimal_mediators` | what is returned is a choice of one inner node per path (`minimalConfounders_choice`, `minimalMediators_choice`); minimality by an injection from nodes to paths |
| C116 | virtual evidence (C17, C18) | the likelihoods factor out of the weights (`weight_put`), so masses after are sums over the values of `w` of masses before; explicit dictionary `towards`; false after ambiguous evidence |
| C117 | C18 on the network rebuilt without the edges into a node (`Spec/Surgery.lean`), C38 | nodes and parents of the rebuilt network from the calls (C07); its weights are the CPT entry of the node times the truncated product; the entry cancels |
| C118 | `get_edges` of a graph with undirected edges: pairs requested (`Props/UgEdges.lean`: `GOp.pairs`) against `Graph.run` | invariant over calls: the keys of `edges` are the texts of the requested pairs in order of first request; an edge is refused only if it is a loop or its ends are already joined |
| C119 | front-door criterion (`Props/Frontdoor.lean`: `FrontdoorOk`) from the paths of `do.py`, C64, C117 | setting `x` is a network (cut, point prior), where `m` is adjusted for `x` by C64; setting `x` besides `m` does not matter for `y` (every directed path leads through `m`); the two effects are back-door effects in the original network |
| C120 | C75 and C117 on the network without the edges into a node, descendants of `do.py` | the two networks agree on the non-descendants of `x`, a set closed under parents (C75); with a point prior the posteriors of the cut network are the probabilities when `x` is set |
| C121 | `GaussianInference` (C42, C59) | sequences of calls reduce to one (C42); what is explained is a variance of the observed variables; a combination without variance is uncorrelated with everything |
| C122 | the join tree (C16, C71) | law of total probability (C71) summed over the values with utilities as weights; reports are not negative (C16) |
| C123 | `Model/Trace`: `propagate` with a record of the calls of `pass_single_message` (the same program otherwise, `propagateT_fst`) | the record is one depth-first walk upwards in post-order and downwards in pre-order; parents come after children upwards and before them downwards; the forest (C14) has no other way |
| C124 | whole pipeline on two networks; `Spec/Relabel`: nodes, evidence and assignments under other names `ρ` and another order of the values | likelihoods of the two histories correspond (also which updates go unseen); sums over assignments are reindexed; joint weights agree because the CPT entries do. `c124_indefinite`: an observation without a positive likelihood depends on the order |
| C125 | whole pipeline; entropy over the reals, of the reported rationals | total probability and Bayes' rule of the reports (C71), Jensen's inequality with its case of equality for `-t log t` (Mathlib), `-ab log ab = -b (a log a) - a (b log b)` for the exchange |
| C126 | whole pipeline | index computation for the repeated rows; the parents in order of insertion (C07) put the new one last; so the joint is unchanged and C80 and C18 apply; connecting by induction on the nodes not yet linked to a root, a link between two pieces closes no cycle |
| C127 | whole pipeline, and `is_active_path` for the criterion | C125 and C122 for the observation of m on top of that of w, averaged over the outcomes of w with total probability (C71); screening from d-separation (proof of C63) |
| C128 | whole pipeline | C117 without its assumption that the network stays connected: C126 for the network without the edges, then the algebra of C117 |
| C129 | the two functions as lists of calls, decimals read as rationals | the side conditions by evaluation of the finite networks in the kernel, the priors by C18 (reports are posteriors for every iteration order), the agreement by C75 |
| C130 | `Model/Json`: `json.dumps` and `json.loads` of the standard library written out character by character (strings with their escapes, numbers, blanks, lists, dictionaries), `float.__repr__`/`float` as a pair of functions whose texts have the shape of JSON numbers; `to_json`, `from_json` on the text of the file | mutual induction over values: the reader consumes exactly the written text, whatever follows it; then C31 |
| C131 | `Model/Json`, `Model/Csv` | the reader's answer on a text that starts no number does not change when the text goes on (induction over the calls of the reader, and monotonicity in the number of calls), so a proper prefix that could be read would end the whole text too early; counterexample for CSV by evaluation |
| C132 | `Spec/Absorb`: `AgreeWhere`, `rowsWith`, `Absorbed` | weights agree where no likelihood is zero and vanish elsewhere; C18 |
| C133 | `Model/JsonTree`: the dictionary of a join tree as a JSON value, written and read by `Model/Json` | the text level adds nothing to the dictionary level; then C30 and the prefix theorem of C131 |
| C134 | `Model/JsonSort`: sort_keys; `Spec/SameDoc`: documents that say the same, networks with the same nodes | lookups do not depend on the order of items, from_dict on permuted nodes is from_dict of the network with permuted nodes (C31), reports by C72; sorting keys gives a document that says the same |
| C135 | `JoinTree.toSortedJson` (with `JVal.sortKeys`, `PyKey.le`) and `JoinTree.fromJson` on top of the model of `json.dumps`/`json.loads`; `SameDoc` is the specification of documents that say the same | `JtDict.ofJ` of a document that says the same has permuted nodes, CPT nodes and parent lists and the same edge list; `JoinTree.from_dict` of permuted dictionaries gives a tree equal up to the order of its heap and parent dictionaries; the propagation theorem for reloaded trees needs only look-ups in these |
| C136 | `Factory.fromLibpgmJson`, `Factory.fromLibpgmDictionary` and `LibPgm.ofJ` on top of the model of `json.loads`; `IsLibDoc` is the specification of a libpgm document | reading succeeds with a network iff the document is one of it (`LibPgm.ofJ_iff`), then C44; the texts cut off by the prefix theorem of C131 |
| C137 | What is modelled: as C135; the document has further entries in parent_info. | How proved: the parents read are the old ones for every id (`parentInfo_read`), and loading only depends on these (`Held.load_same`). `Props/DocFiles.lean` checks the model against the files of the documentation character by character: `simple-bbn.json`, `simple-bbn.csv`, and `simple-join-tree.json`, which is the pinned document plus `"0": []`. |
| C138 | What is modelled: `Bbn.from_csv` line by line (`Model/Csv.lean`), `int` with blanks, signs and underscores (`Model/Serde.lean`). `Spec/CsvOrder.lean` says what a line says. | How proved: reading is a map over the lines followed by a fold (`fromCsv_iff`), so `from_csv` makes a sequence of calls with the same node objects and the same edges per child (`SameCalls`), and C72 applies. `c138_exchange_false` is the counterexample for two exchanged edges into one node, `c138_exact` the converse. |
| C61 | `JoinTree.__deepcopy__` | simulation between tree and copy over histories |
| C56 | `Transformer.get_sep_sets`, sorting | cut property of Kruskal's algorithm with the full comparison (mass, cost, id) |

## Where the code and the stated property disagree

Each of these is a theorem with a concrete witness.

* **C03** `Bbn.__shouldadd__` always answers yes, so `Bbn` accepts cycles (and self loops) that `Dag` rejects (`c03_false`).
* **C05** `Graph.remove_node` leaves the removed node's edges in `get_edges()` (`c05_false`).
* **C17** Propagation visits only the component of the first clique; posteriors of other components are those of un-multiplied
  initial potentials (`c17_false`). `c17_far_law` says exactly which nodes' tables enter the report of such a node.
* **C18, C21, C26** Virtual evidence with exactly one likelihood 1 next to likelihoods strictly between 0 and 1 is mistaken for an
  observation when changes are detected; later changes may not be propagated and the posteriors are stale (`c18_false`, `c21_false`, `c26_false`).
* **C24, C27** An update that raises half-way has already changed some likelihoods; `unobserve_all` afterwards does not restore the
  priors (`c27_false`, `c24_false`).
* **C29** `apply` on a network edited after an earlier `apply` reuses the clique stored in the node metadata: wrong marginals or
  `KeyError` (`c29_false`).
* **C30** `from_dict` loses cliques without edges if there is any edge (`c30_false`).
* **C33** Values containing a comma make the sampler's row keys collide (`c33_false`). `c33_law` says which row is read then (the last one with the
  same key), `c33_iff` that sampling is right exactly if rows with the same key are equal.
* **C34** The comparator used to order nodes is not transitive; a child may be visited before its parent, `get_samples` raises
  `KeyError` (`c34_false`).
* **C36** A draw that contradicts the evidence is returned if only evidence nodes are left to visit (`c36_false`).
  In general exactly the evidence nodes followed by some node without evidence can reject a draw (`c36_exact`, `c36_last_ignored`).
* **C37** The sampler reads CPTs with parents in ascending id order, inference in order of connection (`c37_false`). The two agree only if
  these orders do, whatever the CPT, as long as its rows differ (`c37_iff`; for the probabilities of samples `c50_iff`).
* **C38** `get_ace` weights by the product of the parents' marginals, which is wrong for dependent parents (`c38_false`).
  If every path between two parents is inactive without evidence the weights are right (`c38_separated_parents`, a criterion on the graph).
* **C40** `get_minimal_confounders` may return descendants of `x` and may open colliders (`c40_false`).
* **C43** Gaussian means are reported with the wrong sign, and depend on the order of observations (`c43_false_…`). (The expectations in
  `tests/gaussian/test_inference.py` have the wrong sign too, e.g. `X = 1.5` lowers the mean of `Y` although they are positively correlated.)
* **C45** `from_data` lays tables out with parents in ascending order but connects them in the order listed (`c45_false`); the tables are wrong
  for every other order unless frequencies happen to coincide (`c45_iff`).
  The entry read is that of the parent values with the same row number in ascending order (`c45_law`).
* **C46, C47** For `n = 1` the generators never return (`c46_one_never_ends`; the properties are about `n ≥ 2`).
* **C50** As in C37 the probability of a sample is the product of the entries read with ascending parents (`c50_sample_law`), which is not
  the joint of the network if a node's parents were connected in another order (`c50_false`).
* **C55** `get_minimal_mediators` drops mediators that are colliders on another path (`c55_false`).
* **C57** `to_json` raises `TypeError` on every generated network because of numpy integers (`c57_false`).
* **C60** `from_data` orders the columns by treating the *cells* of a column as its parents; data whose cells name columns in a cycle is
  rejected (`c60_false`).
* **C61** `JoinTree.__deepcopy__` does not copy the listener: evidence set on a copy is recorded but never propagated, so the posteriors
  of a copy never change (`c61_false`, `c61_never_updated`) until `set_listener` is called.
* **C65** `get_all_confounders` leaves out a confounder that is a collider on another closed backdoor path, so the path through it stays
  open (`c65_false`).
* **C66** `remove_node` keeps the edge objects and `Bbn.parents`: removing any node with an edge makes `apply` raise (`KeyError` if it has
  a child, `AttributeError` otherwise) and makes `from_dict(to_dict(..))` raise `KeyError` (`c66_remove_connected_fails`,
  `c66_remove_parent_fails`, `c66_remove_connected_unreadable`, `c66_false`).
* **C67** values containing `|` can give two rows of a clique table the same key in `Potential.to_dict` (`c67_false`).
* **C68** `to_dne` does not quote: values `x,y` / `z` and `x` / `y,z` are written alike (`c68_false`).
* **C69** editing a network that has a join tree and calling `apply` again changes the answers of the first tree (its node potentials are
  overwritten); `reapply` on a tree whose network was edited raises `KeyError` (`parent_info` aliases `bbn.parents`) (`c69_false`).
* **C71** after ambiguous virtual evidence the reports violate the law of total probability (`c71_false`), for the reason of C18.
* **C83** of two nodes with the same name only one is listed by `get_posteriors` or found by `get_bbn_node_by_name`
  (`c83_false`); the network accepts such nodes.
* **C84** with evidence on the node visited last, samples are returned that have probability 0 according to the join tree (`c84_false`), for the
  reason of C36; with parents connected in another than ascending order the sampler draws from another distribution (C50).
* **C87** `str` does not quote: a bar in a name or value makes different networks print alike (`c87_false`). What is printed for a separation set
  depends on the iteration order of sets (`c87_sepsets_false`).
* **C90, C91** after ambiguous virtual evidence an observed Markov blanket does not determine the report (`c90_false`), and raising the
  likelihood of a value can lower its report (`c91_false`); same cause as C18.
* **C93** whatever the recursion limit is, `apply` raises `RecursionError` on every long enough chain of nodes (`c93_chain`: chain length more than
  2·limit + 4; `c93_false`), and `Dag.add_edge` raises it when a node is put before a long chain (`c93_dag_false`). Kept: under any limit the result is
  `RecursionError` or the result without limit, and twice the number of nodes is enough (`c93_enough_partial`, `c93_dag_partial`).
* **C94** with two nodes only `0 → 1` is ever generated, although `1 → 0` is connected and acyclic as well (`c94_false`): the one edge can neither be
  removed nor be reversed. For three nodes or more the claim holds (`c94_uniform_partial`).
* **C95** for three nodes or more the generated polytrees do not become equally likely (`c95_false`). A star with all edges into one node is never left, because
  `__find_predecessor__` looks for a predecessor of `j` only, and every other polytree can turn into one; the probability of a star tends to one
  (`c95_star_partial`), that of everything else to zero (`c95_others_vanish`).
* **C96** two values are twice as likely as any larger number (`c96_false`), because the draw 0 is mapped to 2 as well; with `max_values = 1` the maximum is
  exceeded (`c96_one_exceeded`). The hyperparameters are uniform (`c96_alphas`).
* **C97** if the node visited last is observed, that observation and those just before it are ignored and the estimates converge to what the join tree reports
  without them (`c97_estimate_exact`), e.g. to 1/2 instead of 0 (`c97_false`).
* **C98** if the values of a column name columns in a cycle, e.g. a value equal to the name of its own variable, `from_data` fails on samples that contain them, for one
  network with probability one (`c98_false`, from C60); parents whose names are not in ascending order get a permuted CPT (C45).
* **C99** variables with reported variance zero, in particular observed ones, are sampled with standard deviation 0.01 (`c99_false`).
* **C100** `get_parents` counts the nodes joined by an undirected edge as parents, so `get_out_nodes` leaves them out (`c100_parents_false`); an undirected edge
  is accepted or refused depending on the order of its ends (`c100_order_false`); cycles that use undirected edges are accepted (`c100_semi_false`).
* **C102** `update_evidences` calls `validate`, which overwrites the likelihoods in the caller's `Evidence`: likelihoods 3/5 and 2/5 become 1 and 0,
  so that a later `add_value` of 4/5 does not make the other value the observed one (`c102_false`), and `set_observation` with the same piece
  of evidence toggles where one made anew raises `IndexError` (`c102_toggle_false`).
* **C104** with parents not listed in ascending order the learned network does not make the data most likely: the network learned from the same
  structure with the parents in ascending order gives the rows a larger probability (`c104_false`). Cause: as C45.
* **C110** whatever the recursion limit is, `copy.deepcopy` and `reapply` raise `RecursionError` on the join tree of every long enough chain n → n − 1 → … → 0
  (`c110_chain`: as many arrows as nested copies fit), because each node's `metadata["parents"]` holds the parent objects; the chain 0 → 1 → … → n is no problem.
* **C111** `generate_multi_bbn` returns, with a probability that does not vanish as `max_iter` grows (exactly 1/9 in the limit for three nodes), networks on which `get_samples` raises `KeyError` on every draw: the comparator of `LogicSampler` is not transitive, so parents do not come first
* **C112** in double precision two observed events of probability 2^-537 that tell nothing about their common cause make the reported probabilities of the cause 1 and 0 instead of 3/5 and 2/5, and with 2^-600 every report consists of zeros; no exception is raised
* **C115** with active backdoor paths 0 ← 2 → 3 and 0 ← 2 ← 1 → 3 `get_minimal_confounders` returns 1 and 2 although 2 alone blocks both, and only 2 in another
  iteration order of the set; the same for `get_minimal_mediators` with 0 → 2 → 3 and 0 → 2 → 1 → 3 (`c115_false`). Cause: one node is picked per path, the first
  one in iteration order, without looking at the other paths.
* **C116** after ambiguous virtual evidence about another node the likelihoods that should set one half do not (`c116_false`), for the reason of C18.
* **C118** after `remove_node` the edges of the removed node stay listed (`c118_false`), as in C05.
* **C131** a CSV file that was cut off is read without complaint as another network (`c131_csv_false`): without its edges, or with another last number.
* **C109** after ambiguous virtual evidence proportional likelihoods (factors 1) are stored but the reports differ (`c109_false`, from `c77_false`).
* **C77, C78, C79** after ambiguous virtual evidence scaling the likelihoods changes the reports (`c77_false`), an observed value is not
  reported with probability 1 (`c78_false`), and the product of successive reports depends on the order of the observations (`c79_false`),
  for the reason of C18.
* **C76** in doubles the cumulative sums of ten entries 0.1 end below 1, at a number `np.random.uniform` can return; `get_samples` then raises
  `IndexError` (`c76_false`).
* **C70 / C20** in double precision the posteriors depend on the iteration order of sets in the last bits (`c70_orders_differ`); C20 is about exact
  arithmetic, C70 bounds the difference.