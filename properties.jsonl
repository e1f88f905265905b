{"id": "C01", "title": "Components provider interns nodes and edges", "statement": "For one provider, whatever calls came before, two successful get_node calls return the very same object if and only if they ask for the same (variable, value); two successful get_edge calls return the very same object if and only if they ask for the same (endpoints, relation); an object, once handed out, keeps the content it was asked for.", "quantifier": "every provider, every finite history of get_node and get_edge calls (failing ones included), every pair of positions in that history", "why_tests_cant": "object identity must survive an unbounded interleaving of calls; a test only sees a few histories", "anchors": ["Python/research/scripts/relnet/graph_components.py:BuilderComponentsProvider.get_node", "Python/research/scripts/relnet/graph_components.py:BuilderComponentsProvider.get_edge"]}
{"id": "C02", "title": "Acceptance of get_node and get_edge", "statement": "get_node(variable, value) succeeds exactly when the value was declared for the variable. get_edge(endpoints, relation) on a two-endpoint set succeeds exactly when both endpoints were obtained from this provider before, the relation label was declared and, for a directed relation, source and target variables are variables of endpoints. A rejected call leaves the provider unchanged. Seen from a builder: in every reachable state the nodes and the edge that add_relation and build_from_edges ask for, for two distinct endpoint pairs, are given exactly when both values and the label are declared and a directed relation mentions endpoint variables only; they have the content asked for whatever was cached before and whatever the order of iteration, so the test that endpoints were obtained before never refuses such a call. A builder leaves the provider exactly as the calls get_node for its endpoints and then get_edge leave it, and gets what they answer, so that the nodes and the edge stay cached; a refused one leaves it as the calls up to the refused one.", "quantifier": "every provider state reachable by any call history and every argument", "why_tests_cant": "the acceptance set is infinite and depends on the history", "anchors": ["Python/research/scripts/relnet/graph_components.py:BuilderComponentsProvider.get_node", "Python/research/scripts/relnet/graph_components.py:BuilderComponentsProvider.get_edge", "Python/research/scripts/relnet/graph_components.py:DirectedRelation"]}
{"id": "C03", "title": "opposite_endpoint is the involution of a two-endpoint edge", "statement": "For an edge with two endpoints and any internal ordering of them, opposite_endpoint(n) returns the other endpoint when n is an endpoint (so applying it twice gives n back and it never returns n) and raises otherwise; an edge with fewer than two endpoints cannot be constructed (IndexError).", "quantifier": "every edge, every node, every internal ordering of the endpoint set", "why_tests_cant": "the internal order a/b depends on hashing and varies from run to run", "anchors": ["Python/research/scripts/relnet/graph_components.py:RelationEdge.opposite_endpoint", "Python/research/scripts/relnet/graph_components.py:RelationEdge.is_endpoint"]}
{"id": "C04", "title": "is_edges_connected decides connectivity", "statement": "For every non-empty set of two-endpoint edges is_edges_connected returns True exactly when every two mentioned nodes are linked by a path of the given edges, whatever order sets are iterated in; for the empty set it raises StopIteration; if some edge has not exactly two endpoints it raises AssertionError.", "quantifier": "every finite edge set and every iteration order", "why_tests_cant": "graph reachability over arbitrary graphs and all hash orders", "anchors": ["Python/research/scripts/relnet/sample_graph.py:SampleGraphBuilder.is_edges_connected"]}
{"id": "C05", "title": "add_relation keeps the builder connected and well formed, and fails atomically", "statement": "Starting from an empty builder and applying any sequence of add_relation / add_directed_relation calls, some of which may raise, the builder always holds a connected graph; every edge joins two nodes of the graph having different variables; no two edges share both endpoints; a call that raises leaves the builder's graph unchanged; a call succeeds exactly when its arguments are declared, its endpoints are two nodes of different variables, one of them is already present (or the builder is empty) and the pair is not yet linked.", "quantifier": "every provider schema and every finite history of calls", "why_tests_cant": "an inductive invariant over unbounded histories", "anchors": ["Python/research/scripts/relnet/sample_graph.py:SampleGraphBuilder.add_relation", "Python/research/scripts/relnet/sample_graph.py:SampleGraphBuilder.add_directed_relation", "Python/research/scripts/relnet/sample_graph.py:SampleGraphBuilder.validate_endpoints"]}
{"id": "C06", "title": "Exactly which builder histories give one value per variable", "statement": "For every builder history mixing add_relation, add_directed_relation and join_sample (exceptions caught) the sample held at the end has at most one value per variable if and only if no accepted relation call named a node whose variable was present with another value; join_sample never brings in a second value and nothing repairs one; the result of build_from_edges is single-valued exactly when the named endpoints (and nodes already there) are. Single-valuedness, which value_for_variable, marginals and folded counts rely on, is therefore not enforced by add_relation and build_from_edges: accepted histories giving two values are exhibited.", "quantifier": "every builder history", "why_tests_cant": "needs either an invariant proof or a refutation; the existing tests even build such samples", "anchors": ["Python/research/scripts/relnet/sample_graph.py:SampleGraphBuilder.add_relation", "Python/research/scripts/relnet/sample_graph.py:SampleGraphBuilder.join_sample", "Python/research/scripts/relnet/sample_graph.py:SampleGraph.value_for_variable"]}
{"id": "C07", "title": "join_sample succeeds exactly on compatible samples and yields the union", "statement": "For a well-formed builder and a connected well-formed sample, under every set iteration order, join_sample succeeds exactly when the sample comes from the same provider, shares a node with the builder (or the builder is empty), no variable gets a second value and no linked pair gets a second relation; the builder then holds exactly the union of nodes and the union of edges.", "quantifier": "every builder, every sample, every iteration order of the edge sets at every round", "why_tests_cant": "the work-list is order dependent; the outcome must not be", "anchors": ["Python/research/scripts/relnet/sample_graph.py:SampleGraphBuilder.join_sample"]}
{"id": "C08", "title": "join_sample preserves connectivity and single-valuedness", "statement": "Any sequence of join_sample calls starting from an empty builder leaves a connected, single-valued graph with at most one edge per pair, even if some of the calls raised half way.", "quantifier": "every finite sequence of samples and every iteration order", "why_tests_cant": "partial updates before an exception are hard to enumerate", "anchors": ["Python/research/scripts/relnet/sample_graph.py:SampleGraphBuilder.join_sample"]}
{"id": "C09", "title": "can_sample_be_joined is necessary but not sufficient for join_sample", "statement": "If join_sample succeeds then can_sample_be_joined was True; can_sample_be_joined is True exactly when no linked pair would get a second relation; there are samples for which it returns True and join_sample raises.", "quantifier": "every builder and sample", "why_tests_cant": "universal implication plus a refutation of its converse", "anchors": ["Python/research/scripts/relnet/sample_graph.py:SampleGraphBuilder.can_sample_be_joined", "Python/research/scripts/relnet/sample_graph.py:SampleGraphBuilder.join_sample"]}
{"id": "C10", "title": "edges_set_view and build_from_edges are inverse", "statement": "For every connected sample with at least one edge, whose components are declared, build_from_edges(sample.edges_set_view()) returns an equal sample; for every accepted edge set, build_from_edges(E).edges_set_view() == E; single node samples round-trip through build_single_node. build_from_edges with validation accepts exactly connected sets of declared two-variable edges.", "quantifier": "every sample graph / every edge set and iteration order", "why_tests_cant": "round trip over all graphs", "anchors": ["Python/research/scripts/relnet/sample_graph.py:SampleGraph.edges_set_view", "Python/research/scripts/relnet/sample_graph.py:SampleGraphBuilder.build_from_edges", "Python/research/scripts/relnet/sample_graph.py:SampleGraphBuilder.build_single_node"]}
{"id": "C11", "title": "builder() and build() are inverse", "statement": "For every sample with at least one node, sample.builder().build() equals sample; building an empty builder raises; the builder obtained from a sample with one edge per pair indexes exactly the sample's linked pairs.", "quantifier": "every sample graph", "why_tests_cant": "all graphs", "anchors": ["Python/research/scripts/relnet/sample_graph.py:SampleGraph.builder", "Python/research/scripts/relnet/sample_graph.py:SampleGraphBuilder.build"]}
{"id": "C12", "title": "Sample equality is structural", "statement": "Two samples compare equal exactly when they have the same nodes and the same edges; names, internal endpoint order and construction history do not matter.", "quantifier": "every pair of samples", "why_tests_cant": "equality is decided on one mixed set of nodes and edges; must be injective for all graphs", "anchors": ["Python/research/scripts/relnet/sample_graph.py:SampleGraph.__eq__", "Python/research/scripts/relnet/sample_graph.py:SampleGraph.__init__"]}
{"id": "C13", "title": "is_subgraph is a partial order", "statement": "a.is_subgraph(b) holds exactly when nodes and edges of a are contained in those of b (the receiver is the smaller one, opposite to its docstring); it is reflexive, transitive and antisymmetric with respect to ==, and the empty sample is below every sample.", "quantifier": "every triple of samples", "why_tests_cant": "order laws quantify over all graphs", "anchors": ["Python/research/scripts/relnet/sample_graph.py:SampleGraph.is_subgraph"]}
{"id": "C14", "title": "similarity is the Jaccard index", "statement": "similarity is symmetric, lies in [0, 1], equals |common components| / |all components|, equals 1 exactly for equal samples and 0 exactly for samples without a common node (for well-formed samples); it raises ZeroDivisionError exactly when both samples are empty; 1 - similarity obeys the triangle inequality.", "quantifier": "every pair (triple) of samples", "why_tests_cant": "metric laws over all graphs", "anchors": ["Python/research/scripts/relnet/sample_graph.py:SampleGraph.similarity"]}
{"id": "C15", "title": "Value lookups agree with each other", "statement": "On every single-valued sample: have_value(v, x) iff (v, x) in values() iff value_for_variable(v) returns x (x not None); have_variable(v) iff v in included_variables iff some value is present; the answers do not depend on iteration order. On a multi-valued sample value_for_variable depends on iteration order. A sample set has a variable or a value exactly if one of its samples has it.", "quantifier": "every sample, variable, value and iteration order", "why_tests_cant": "order independence", "anchors": ["Python/research/scripts/relnet/sample_graph.py:SampleGraph.value_for_variable", "Python/research/scripts/relnet/sample_graph.py:SampleGraph.values", "Python/research/scripts/relnet/sample_graph.py:SampleGraph.have_value", "Python/research/scripts/relnet/sample_graph.py:SampleGraph.have_variable"]}
{"id": "C16", "title": "transform_with_replaced_values is substitution", "statement": "On a declared sample it succeeds exactly when every replacement value for a present variable is declared; the result has exactly the substituted nodes and edges, keeps connectivity, the variable set and single-valuedness; replacing by present values is the identity; two successive replacements of the same variables equal the last one.", "quantifier": "every sample and replacement dictionary", "why_tests_cant": "substitution laws over all graphs", "anchors": ["Python/research/scripts/relnet/sample_graph.py:SampleGraph.transform_with_replaced_values"]}
{"id": "C17", "title": "belt_nodes is the one-step neighbourhood", "statement": "For non-empty centre set C and any relation filter, belt_nodes(C) maps exactly the nodes outside C linked to C by an allowed edge, each to exactly the allowed edges between it and C; it never trips its internal assertion; it raises exactly when C is empty.", "quantifier": "every sample, centre set, filter and iteration order", "why_tests_cant": "all graphs and orders", "anchors": ["Python/research/scripts/relnet/sample_graph.py:SampleGraph.belt_nodes"]}
{"id": "C18", "title": "external_nodes is breadth-first search", "statement": "For non-empty centre set C, external_nodes(C) terminates, never trips its internal assertions and maps exactly the nodes outside C reachable from C over allowed edges; each node is mapped to exactly the allowed edges joining it to a node one step nearer to C (edges inside one distance layer are omitted).", "quantifier": "every sample, centre set, filter and iteration order", "why_tests_cant": "termination and shortest path layering over all graphs", "anchors": ["Python/research/scripts/relnet/sample_graph.py:SampleGraph.external_nodes"]}
{"id": "C19", "title": "neighboring_values lists exactly the neighbours", "statement": "The result maps exactly the nodes joined to the centre by an allowed edge, each to such an edge (the only one when pairs are linked once); an empty filter set behaves as no filter.", "quantifier": "every sample, centre and filter, every order", "why_tests_cant": "all graphs", "anchors": ["Python/research/scripts/relnet/sample_graph.py:SampleGraph.neighboring_values"]}
{"id": "C20", "title": "SampleSetBuilder behaves as a counter", "statement": "Any history of add / add_all / remove / remove_all on a builder leaves, for each sample, the sum of counts added since its last removal, with each sample present iff it was added after its last removal; length() is the sum; add of a foreign sample and remove of an absent one raise and change nothing.  `count_of` answers exactly that count after any history, an AssertionError if there is none; `remove` returns the sample with that count.", "quantifier": "every finite operation history", "why_tests_cant": "refinement of a map over unbounded histories", "anchors": ["Python/research/scripts/relnet/sample_set.py:SampleSetBuilder.add", "Python/research/scripts/relnet/sample_set.py:SampleSetBuilder.add_all", "Python/research/scripts/relnet/sample_set.py:SampleSetBuilder.remove", "Python/research/scripts/relnet/sample_set.py:SampleSetBuilder.remove_all", "Python/research/scripts/relnet/sample_set.py:SampleSetBuilder.length", "Python/research/scripts/relnet/sample_set.py:SampleSetBuilder.build"]}
{"id": "C21", "title": "SampleSet union adds counts and is commutative and associative", "statement": "union of compatible sets maps every sample to the sum of its counts; union is commutative, associative, has the empty set as unit, lengths add up; join_sample_set of a non-empty list equals the sum regardless of list order, and raises for the empty list; arguments are not modified.", "quantifier": "every pair/triple/list of sample sets and every iteration order", "why_tests_cant": "algebraic laws over all finite multisets", "anchors": ["Python/research/scripts/relnet/sample_set.py:SampleSet.union", "Python/research/scripts/relnet/sample_set.py:SampleSetBuilder.join_sample_set"]}
{"id": "C22", "title": "filter_samples selects a sub-multiset", "statement": "filter_samples(p) keeps exactly the samples satisfying p with their counts; union of the filter by p and by not p gives the original set; lengths add up; filters compose.", "quantifier": "every sample set and every predicate", "why_tests_cant": "second-order quantification over predicates", "anchors": ["Python/research/scripts/relnet/sample_set.py:SampleSet.filter_samples"]}
{"id": "C23", "title": "probabilities is a probability distribution", "statement": "For a set with positive counts, non empty, probabilities() returns count/length for each sample, all in (0,1], summing to exactly 1 over the rationals, and probability_of agrees; for the empty set probabilities() raises.", "quantifier": "every sample set with positive counts", "why_tests_cant": "sum over arbitrary finite sets; the internal assertion must never fire", "anchors": ["Python/research/scripts/relnet/sample_set.py:SampleSet.probabilities", "Python/research/scripts/relnet/sample_set.py:SampleSet.probability_of", "Python/research/scripts/relnet/sample_set.py:Samples.count_of"]}
{"id": "C24", "title": "group_intersecting partitions the samples", "statement": "The groups returned are non-empty, disjoint parts of the set with unchanged counts; two samples in one group are linked by a chain of samples sharing a linked pair of variables, samples of different groups share no linked pair. As written the code can lose samples (a merged key may overwrite an existing group). Nothing is lost, and the groups are exactly the classes of chain-linked samples, if no two linked families of samples without a common set of pairs link the same pairs all together; this condition is exact for merging intersecting keys in any order. If the first two samples share a pair and a later one links exactly their pairs together, the later one is lost.", "quantifier": "every sample set, every dict order", "why_tests_cant": "fixed point of a merge loop over arbitrary hypergraphs", "anchors": ["Python/research/scripts/relnet/sample_set.py:SampleSet.group_intersecting"]}
{"id": "C25", "title": "is_all_values_match decides value consistency", "statement": "Returns True exactly when no variable has two different values over all nodes of all samples; independent of iteration orders.", "quantifier": "every sample set and order", "why_tests_cant": "all sets", "anchors": ["Python/research/scripts/relnet/sample_set.py:SampleSet.is_all_values_match"]}
{"id": "C26", "title": "can_join_samples decides agreement on the variables common to all samples", "statement": "For single-valued samples returns False exactly when two samples differ on a variable contained in all samples; on the empty set raises TypeError; is_all_values_match implies can_join_samples, the converse fails for three or more samples.", "quantifier": "every sample set", "why_tests_cant": "universal characterisation plus refutation of the converse", "anchors": ["Python/research/scripts/relnet/sample_set.py:SampleSet.can_join_samples"]}
{"id": "C27", "title": "make_joined_sample is the union of all samples", "statement": "If it returns then the sample is the union of all nodes and edges and the counts are those of the samples. On non-empty well-formed samples it returns exactly if there is a sample, no variable has two values and no pair two relations over all samples, and each sample after the first, in the order of insertion, shares a node with an earlier one; otherwise it raises AssertionError. So of two sample sets that compare equal one can be joined while the other raises.", "quantifier": "every sample set and order", "why_tests_cant": "all sets, folds of join_sample", "anchors": ["Python/research/scripts/relnet/sample_set.py:SampleSet.make_joined_sample"]}
{"id": "C28", "title": "Marginal probabilities are the exact relative frequencies", "statement": "For single-valued outcomes with positive counts: without `unobserved`, marginal_variables_probability gives each observed value x of v the probability N(v,x)/N(v), summing to 1 per variable; with `unobserved` (no value named 'u') gives N(v,x)/N and 1-N(v)/N for 'u'; exactly the requested variables that occur in some outcome are present; no internal assertion fires; result does not depend on iteration order.", "quantifier": "every outcome set, variable selection and order", "why_tests_cant": "counts over arbitrary finite multisets", "anchors": ["Python/research/scripts/relnet/sample_space.py:SampleSpace.marginal_variables_probability"]}
{"id": "C29", "title": "A declared value named 'u' breaks the unobserved marginal", "statement": "If a variable has a value equal to 'u' that occurs among outcomes then marginal_variables_probability(unobserved=True) never returns that value's frequency: it is overwritten and the normalisation assertion fires unless the counts happen to cancel.", "quantifier": "every outcome set in which 'u' occurs with positive count", "why_tests_cant": "exact characterisation of a failure class", "anchors": ["Python/research/scripts/relnet/sample_space.py:SampleSpace.marginal_variables_probability"]}
{"id": "C30", "title": "included_variables and included_relations are exact", "statement": "included_variables returns exactly one entry per occurring variable with exactly its occurring values; included_relations returns exactly the occurring relations.", "quantifier": "every outcome set and order", "why_tests_cant": "all sets", "anchors": ["Python/research/scripts/relnet/sample_space.py:SampleSpace.included_variables", "Python/research/scripts/relnet/sample_space.py:SampleSpace.included_relations"]}
{"id": "C31", "title": "Folded graph counts", "statement": "folded_graph has one node per occurring variable whose value counts are the number of outcomes (with multiplicity) containing that value, one edge per linked variable pair with the number of outcomes containing that edge; for single-valued outcomes unobserved_count is the number of outcomes without the variable, is non-negative, and marginal_distribution sums to 1 (no value named 'unobserved'); with such a value it silently does not.", "quantifier": "every outcome set and order", "why_tests_cant": "aggregation over arbitrary multisets; failure class", "anchors": ["Python/research/scripts/relnet/sample_space.py:SampleSpace.folded_graph", "Python/research/scripts/relnet/folded_graph.py:FoldedNode.unobserved_count", "Python/research/scripts/relnet/folded_graph.py:FoldedNode.marginal_distribution"]}
{"id": "C32", "title": "find_for_values is exact", "statement": "Returns exactly the outcomes (with counts) that contain all the given values; enlarging the values shrinks the result; the empty set of values returns everything.", "quantifier": "every outcome set and value set", "why_tests_cant": "all sets", "anchors": ["Python/research/scripts/relnet/sample_space.py:SampleSpace.find_for_values"]}
{"id": "C33", "title": "factorized succeeds exactly on factorized graphs and partitions outcomes", "statement": "factorized() returns iff is_factorized() is True; then the factors are pairwise disjoint, their union with counts is the set of outcomes, two edge-bearing outcomes are in the same factor iff they have the same linked variable pairs, two single node outcomes iff the same variable; both answers are independent of iteration order.", "quantifier": "every outcome set and every order", "why_tests_cant": "order independence of an incremental check", "anchors": ["Python/research/scripts/relnet/sample_space.py:SampleSpace.factorized", "Python/research/scripts/relnet/relation_graph.py:RelationGraph.is_factorized"]}
{"id": "C34", "title": "Conditioning selects exactly the outcomes consistent with the evidence", "statement": "conditional_graph(e) keeps, with unchanged counts, exactly the outcomes containing e or sharing no variable with e; conditioning twice on e is conditioning once; conditioning on e1 then e2 equals e2 then e1; raises exactly for foreign evidence.", "quantifier": "every outcome set and evidence", "why_tests_cant": "algebra over all inputs", "anchors": ["Python/research/scripts/relnet/relation_graph.py:RelationGraph.conditional_graph"]}
{"id": "C35", "title": "Activation graph is always produced for conditioned graphs and weights are bounded", "statement": "For a relation graph of single-valued connected outcomes with positive counts and a non-empty evidence, if conditioning leaves at least one outcome then activation_graph never trips its assertions, has one node per declared variable, all weights are in [0, 1], evidence values have weight (number of outcomes containing the evidence)/(number of outcomes); empty evidence raises AssertionError and an empty selection raises ZeroDivisionError.", "quantifier": "every relation graph, evidence, filter and order", "why_tests_cant": "internal assertions over arbitrary graphs", "anchors": ["Python/research/scripts/relnet/conditional_graph.py:ConditionalGraph.activation_graph"]}
{"id": "C36", "title": "Activation graph relation counts", "statement": "In an activation graph each out-of-query linked pair counts exactly the outcomes in which the edge joins nodes at different distances from the evidence, and each evidence edge is counted for every selected outcome, also for those disjoint from the evidence; edges between equally distant nodes are never counted.", "quantifier": "every relation graph and evidence", "why_tests_cant": "characterisation over all graphs", "anchors": ["Python/research/scripts/relnet/conditional_graph.py:ConditionalGraph.activation_graph", "Python/research/scripts/relnet/sample_graph.py:SampleGraph.external_nodes"]}
{"id": "C37", "title": "RelationGraphBuilder history", "statement": "After any history of add_outcome / add_outcomes / build_sample on a fresh builder, build() yields for each outcome the sum of the counts of accepted calls; calls with count < 1 or a foreign outcome raise without effect (add_outcomes keeps the prefix before the failing one); build raises exactly if nothing was accepted; next_id never repeats.", "quantifier": "every finite history", "why_tests_cant": "unbounded histories", "anchors": ["Python/research/scripts/relnet/relation_graph.py:RelationGraphBuilder.add_outcome", "Python/research/scripts/relnet/relation_graph.py:RelationGraphBuilder.add_outcomes", "Python/research/scripts/relnet/relation_graph.py:RelationGraphBuilder.build", "Python/research/scripts/relnet/relation_graph.py:RelationGraphBuilder.next_id"]}
{"id": "C38", "title": "generate_all_possible_outcomes enumerates exactly the connected graphs", "statement": "On a fresh builder generate_all_possible_outcomes terminates without error and leaves exactly the non-empty connected single-valued graphs over the declared variables, values and (undirected) relations with at most one relation per pair, each with count 1, whatever the iteration orders; on a builder having outcomes it raises.", "quantifier": "every non-empty schema and every order", "why_tests_cant": "an enumeration proof by induction on an odometer and on variables", "anchors": ["Python/research/scripts/relnet/relation_graph.py:RelationGraphBuilder.generate_all_possible_outcomes"]}
{"id": "C39", "title": "Number of generated outcomes follows the published recurrence", "statement": "The number of outcomes generated for n variables with m values each and r relations is sum_k C(n,k) c_k m^k with c_k = (r+1)^(k(k-1)/2) - (1/k) sum_{i<k} i C(k,i) (r+1)^((k-i)(k-i-1)/2) c_i, as asserted by the experiment. Computed with floats and int(), as the experiment does, the number is the same as long as it and n(r+1)^(n(n-1)/2) are at most 2^53, so that all assertions of the experiment hold.", "quantifier": "every n, m, r >= 1", "why_tests_cant": "the experiment checks up to 4 only", "anchors": ["Python/research/scripts/experiments/outcomes_space_power.py:outcomes_space_power.calc_number_of_outcomes", "Python/research/scripts/relnet/relation_graph.py:RelationGraphBuilder.generate_all_possible_outcomes"]}
{"id": "C40", "title": "Generated space is symmetric in values", "statement": "In the graph of all outcomes every value of a variable occurs in the same number of outcomes, so marginals without unobserved are uniform.", "quantifier": "every schema, variable and pair of values", "why_tests_cant": "bijection argument over all graphs", "anchors": ["Python/research/scripts/experiments/random_variables_distribution_for_all_outcomes.py", "Python/research/scripts/relnet/relation_graph.py:RelationGraphBuilder.generate_all_possible_outcomes", "Python/research/scripts/relnet/sample_space.py:SampleSpace.marginal_variables_probability"]}
{"id": "C41", "title": "joined_on_variables", "statement": "Joining on variables leaves untouched the outcomes not containing any of these variables; on a single variable with factorized samples the joined outcomes are exactly the unions of one consistent sample per group, counted by the product; joining on the empty set of variables is the identity.", "quantifier": "every relation graph, variables and orders", "why_tests_cant": "nested cross products over arbitrary groups", "anchors": ["Python/research/scripts/relnet/relation_graph.py:RelationGraph.joined_on_variables"]}
{"id": "C42", "title": "make_joined computes the product distribution", "statement": "For a factorized relation graph whose factors are complete (each factor has an outcome for every assignment of its variables) whenever make_joined returns, its outcomes are exactly the unions of one sample per factor agreeing on shared values, and the count of each is the product of the counts, i.e. the normalised product of factors.", "quantifier": "every factorized relation graph with complete factors and every iteration order", "why_tests_cant": "product over arbitrary factor graphs and all elimination orders", "anchors": ["Python/research/scripts/relnet/relation_graph.py:RelationGraph.make_joined"]}
{"id": "C43", "title": "make_joined depends on hash order and can fail on legitimate inputs", "statement": "make_joined should be a function of the graph; it is not: there are factorized graphs for which one iteration order raises and another returns, and pairwise Markov networks (K4) for which it raises AssertionError.", "quantifier": "existence of graphs and orders; universal for the K4 shape", "why_tests_cant": "which order Python takes cannot be controlled by a unit test", "anchors": ["Python/research/scripts/relnet/relation_graph.py:RelationGraph.make_joined", "Python/research/scripts/relnet/sample_set.py:SampleSet.can_join_samples"]}
{"id": "C44", "title": "is_joined is exact", "statement": "is_joined returns True exactly when all outcomes have the same variable set (in particular for the empty graph), independently of order; the result of a returning make_joined on complete factors is joined.", "quantifier": "every relation graph and order", "why_tests_cant": "all sets", "anchors": ["Python/research/scripts/relnet/relation_graph.py:RelationGraph.is_joined"]}
{"id": "C45", "title": "Conditioning a factorized graph then joining is Bayesian inference", "statement": "For complete factors, conditioning on a value and then make_joined gives the same outcomes and counts as make_joined and then selecting the outcomes having that value.", "quantifier": "every complete factor graph and evidence value", "why_tests_cant": "commutation of two global operations over all networks", "anchors": ["Python/research/scripts/relnet/relation_graph.py:RelationGraph.conditional_graph", "Python/research/scripts/relnet/relation_graph.py:RelationGraph.make_joined", "Python/research/scripts/experiments/comparing_with_bayes_network.py", "Python/research/scripts/experiments/comparing_with_markov_network.py"]}
{"id": "C46", "title": "Textual forms are deterministic", "statement": "text_view and the default name of a well formed sample and the repr of an edge depend only on the structure, not on iteration order, and determine the sample when the texts of variables, values and relations avoid the delimiters; node string ids are injective when no variable text contains the separator and are not in general; repr of a sample set and print_samples depend only on the dictionary contents and the names of the sample objects, and determine the dictionary (samples and counts) when the names are different and free of line breaks; a sample built from SampleGraph.builder() keeps the name of the original, which is then not its text. After any calls of set_name and add_relation on a builder the name is the one set last and the content is that of add_relation alone.", "quantifier": "every sample and order", "why_tests_cant": "sorted joins over all orders", "anchors": ["Python/research/scripts/relnet/sample_graph.py:SampleGraph.text_view", "Python/research/scripts/relnet/graph_components.py:ValueNode.__init__", "Python/research/scripts/relnet/graph_components.py:RelationEdge.__repr__", "Python/research/scripts/relnet/sample_space.py:SampleSpace.print_samples", "Python/research/scripts/relnet/sample_set.py:SampleSet.__repr__"]}
{"id": "C47", "title": "Immutable objects are isolated from builders", "statement": "No later operation on any builder, set or dictionary of the API or of the user changes a SampleGraph, SampleSet or RelationGraph built before; the cached length of a SampleSet is always the sum of its counts; SampleSet.builder(), SampleSetBuilder.copy(), build(), SampleGraph.builder() and __copy__ give independent copies; a SampleSetBuilder changes only by its own methods or through a RelationGraphBuilder holding it. The only aliasing: a RelationGraphBuilder shares a non-empty (and silently not an empty) SampleSetBuilder passed to it; a SampleGraphBuilder shares non-empty node/edge sets passed to it, two of them sharing sets can produce a sample with two edges on one pair; a components provider keeps the declarations of the user by reference. In histories without user sets and build_from_edges every sample graph is well formed.", "quantifier": "every finite history of operations over a heap of objects", "why_tests_cant": "aliasing over unbounded histories", "anchors": ["Python/research/scripts/relnet/sample_set.py:SampleSet.__init__", "Python/research/scripts/relnet/sample_set.py:SampleSetBuilder.__init__", "Python/research/scripts/relnet/sample_graph.py:SampleGraphBuilder.__init__", "Python/research/scripts/relnet/relation_graph.py:RelationGraphBuilder.__init__", "Python/research/scripts/relnet/sample_graph.py:SampleGraph.builder", "Python/research/scripts/relnet/graph_components.py:BuilderComponentsProvider.__init__", "Python/research/scripts/relnet/sample_space.py:SampleSpace.builder"]}
{"id": "C48", "title": "variables_subgraph_hash and edges_endpoint_variables are exact", "statement": "variables_subgraph_hash(W) is the set of components of the subgraph induced by W: monotone in W, everything for W containing all variables, and two samples agreeing on W have equal results; edges_endpoint_variables is the set of linked variable pairs, which for single-valued samples is in bijection with linked node pairs.", "quantifier": "every sample and variable set", "why_tests_cant": "all graphs", "anchors": ["Python/research/scripts/relnet/sample_graph.py:SampleGraph.variables_subgraph_hash", "Python/research/scripts/relnet/sample_graph.py:SampleGraph.edges_endpoint_variables", "Python/research/scripts/relnet/sample_graph.py:SampleGraph.single_node_variable"]}
{"id": "C49", "title": "Equality and hash of all classes keep Python's contract", "statement": "For every class used as a member of sets or as a key of dictionaries (value nodes, relations, edges, sample graphs, sample sets, variable/folded/active nodes and edges) == is an equivalence and equal objects have equal hashes, whatever the hashes of the user's values and in whatever order samples were added; comparisons between a class and its subclasses are symmetric only because Python tries the method of the subclass first. Consequently dictionaries and sets behave, after any history, as insertion ordered maps over classes of equal objects. Equality of folded graphs ignores the number of outcomes, so equal folded graphs can report different unobserved counts.", "quantifier": "all objects, all hash functions of the interpreter, all histories of dictionary operations", "why_tests_cant": "hash collisions and hash randomisation cannot be exercised by fixed tests; the contract is a statement about all pairs of objects", "anchors": ["Python/research/scripts/relnet/graph_components.py:ValueNode.__hash__", "Python/research/scripts/relnet/graph_components.py:RelationEdge.__hash__", "Python/research/scripts/relnet/graph_components.py:DirectedRelation.__hash__", "Python/research/scripts/relnet/sample_set.py:SampleSet.__hash__", "Python/research/scripts/relnet/folded_graph.py:FoldedNode.__eq__", "Python/research/scripts/relnet/activation_graph.py:ActiveNode.__eq__", "Python/research/scripts/relnet/variables_graph.py:VariablesGraph.__eq__"]}
{"id": "C50", "title": "make_all_sub_graphs lists every labelled graph once", "statement": "For 2 <= n <= 8 make_all_sub_graphs(n) returns (its counting assertion holds) a network made of the n single nodes and of every graph with at least one edge on these nodes, each edge of one of the two types, each graph exactly once, with exactly the nodes its edges touch; different nodes have different identifiers, and no call of add_node or add_edge is refused or ignored. For n <= 1 it raises IndexError. For n >= 9 it does not return: the number of graphs is compared with a float, and is never one; up to 36 nodes the assertion fails, above OverflowError is raised.", "quantifier": "all n, every iteration order of sets", "why_tests_cant": "the assertion is an identity between an enumeration and 3^(n(n-1)/2), computed with floats; from nine nodes on the enumeration is too long to be run", "anchors": ["Python/research/scripts/playaround/number_of_subgraphs.py:make_all_sub_graphs"]}
{"id": "C51", "title": "Grid packing, listing and hashing are exact", "statement": "For every well shaped grid: packing into 30-bit words and reconstituting gives the grid back; the packed tuple has the announced length and different grids of one size pack differently; asList lists exactly the cells holding the key, once each, in column order; count agrees with asList; equal grids have equal hashes; assignment changes one cell only and count by one at most.", "quantifier": "all grids of all sizes", "why_tests_cant": "word boundaries depend on width*height modulo 30; injectivity is about all pairs of grids", "anchors": ["Python/research/scripts/demo/game.py:Grid.packBits", "Python/research/scripts/demo/game.py:Grid._unpackBits", "Python/research/scripts/demo/game.py:Grid.asList", "Python/research/scripts/demo/game.py:Grid.__hash__", "Python/research/scripts/demo/game.py:reconstituteGrid"]}
{"id": "C52", "title": "Agents stay on open cells, legal actions are exact and no rule fails unexpectedly", "statement": "In a maze with a closed border, after any sequence of successful moves Pacman is on an open cell and each ghost on an open cell or, facing along the edge, half-way between two open neighbours; legal actions are exactly the moves to open neighbours (ghosts: no stop and no reversal unless forced; half-way: straight on); a move succeeds exactly when the game is not finished and the action is legal, otherwise the only errors are the documented exceptions; agents never leave their connected region; a ghost whose region has two cells always has a legal move. The vectors of the directions point up, down, right and left, and turning left turns the vector by a quarter counterclockwise.", "quantifier": "all bordered mazes, all agent placements, all finite sequences of moves in any agent order", "why_tests_cant": "an invariant over unbounded executions with half-speed ghosts and timers", "anchors": ["Python/research/scripts/demo/game.py:Actions.getPossibleActions", "Python/research/scripts/demo/game.py:Actions.directionToVector", "Python/research/scripts/demo/pacman.py:PacmanRules.getLegalActions", "Python/research/scripts/demo/pacman.py:GhostRules.getLegalActions", "Python/research/scripts/demo/pacman.py:GameState.generateSuccessor", "Python/research/scripts/demo/pacman.py:GhostRules.decrementTimer"]}
{"id": "C58", "title": "Layout parsing is exact and initial states are well placed", "statement": "A rectangular text is parsed without error into a layout that has walls, food, capsules and agents exactly at their characters (row 0 is the last line), agents sorted by kind, column and row, and right ghost and food numbers; deepCopy of a parsed layout is equal; the initial state of a bordered text with a Pacman has Pacman first, every agent at rest on its open start cell, and min(n, ghosts) ghosts; this holds for the layout of the demo.", "quantifier": "all rectangular texts, all ghost numbers", "why_tests_cant": "all texts", "anchors": ["Python/research/scripts/demo/layout.py:Layout.processLayoutText", "Python/research/scripts/demo/layout.py:Layout.processLayoutChar", "Python/research/scripts/demo/layout.py:Layout.deepCopy", "Python/research/scripts/demo/game.py:GameStateData.initialize", "Python/research/scripts/demo/demo.py:_build_configuration"]}
{"id": "C53", "title": "The score is an exact account and outcomes are consistent", "statement": "After any successful game the score is -1 per Pacman move, +10 per food eaten, +200 per ghost eaten, +500 for a win and -500 for every ghost that kills; ghosts eaten are bounded by scared ghosts plus ghosts times capsules; a game is won exactly when the last of at least one food is eaten, lost exactly when a ghost kills, never both; food and capsules disappear exactly at the cells Pacman enters; finished states have no legal actions and no successors; a layout without food cannot be won; the score of every game from a parsed layout has an explicit bound.", "quantifier": "all well placed states, all finite sequences of moves", "why_tests_cant": "accounting identity over unbounded executions", "anchors": ["Python/research/scripts/demo/pacman.py:GameState.generateSuccessor", "Python/research/scripts/demo/pacman.py:PacmanRules.consume", "Python/research/scripts/demo/pacman.py:GhostRules.collide", "Python/research/scripts/demo/pacman.py:GameState.getLegalActions"]}
{"id": "C54", "title": "Collisions are neither missed nor invented", "statement": "In every open state of a game a ghost within 0.7 of Pacman is a non-scared ghost standing at its own start; a step that loses the game leaves a non-scared ghost within 0.7 of Pacman. A ghost sent to its start while Pacman stands there is not examined again, so both can share a cell in an open game.", "quantifier": "all bordered layouts, all finite sequences of moves", "why_tests_cant": "invariant over unbounded executions including half speeds", "anchors": ["Python/research/scripts/demo/pacman.py:GhostRules.checkDeath", "Python/research/scripts/demo/pacman.py:GhostRules.canKill", "Python/research/scripts/demo/pacman.py:GhostRules.collide", "Python/research/scripts/demo/pacman.py:GhostRules.placeGhost"]}
{"id": "C55", "title": "The game loop is a replayable round robin and legal agents never crash it", "statement": "Whatever the agents answer, after any number of turns the agents were asked in cyclic order, the state equals the replay of the recorded moves (only a crash may leave one refused move at the end), the loop runs exactly while the game is neither won nor lost and nothing was raised; an observation equals the true state except for the last change of score. Agents that answer with legal actions never crash a game on a bordered layout with one Pacman in which every agent can move. getProgress is the share of food left, in (0,1] while the game runs.", "quantifier": "all agents (arbitrary functions of turn, index and observation), all numbers of turns, all layouts", "why_tests_cant": "quantifies over agents and unbounded numbers of turns", "anchors": ["Python/research/scripts/demo/game.py:Game.run", "Python/research/scripts/demo/pacman.py:ClassicGameRules.newGame", "Python/research/scripts/demo/pacman.py:ClassicGameRules.process", "Python/research/scripts/demo/pacman.py:ClassicGameRules.getProgress", "Python/research/scripts/demo/game.py:GameStateData.deepCopy"]}
{"id": "C57", "title": "Counters are vectors with an inner product; sampling and the demo agents follow their distributions", "statement": "Counter addition, subtraction, multiplication, total and normalisation are the pointwise operations, the inner product, the sum and division by the total on functions of finite support, for any insertion order; reading stores missing keys without changing any value. sample, nSample, getProbability and chooseFromDistribution realise the normalised weights: each index is chosen exactly for an interval of random numbers whose length is its share. A random ghost is uniform over its legal actions; a directional ghost gives q/m extra to its m preferred actions; the keyboard agent always answers legally with a fixed precedence. Hence the demo game never crashes, whatever keys are pressed and numbers are drawn. Directions are sorted by the alphabetical order of their names.", "quantifier": "all counters, all weight lists, all random numbers in [0,1), all states, all sequences of keys", "why_tests_cant": "random numbers, counters and key sequences are unbounded", "anchors": ["Python/research/scripts/demo/util.py:Counter", "Python/research/scripts/demo/util.py:normalize", "Python/research/scripts/demo/util.py:sample", "Python/research/scripts/demo/util.py:nSample", "Python/research/scripts/demo/util.py:chooseFromDistribution", "Python/research/scripts/demo/ghostAgents.py:GhostAgent.getAction", "Python/research/scripts/demo/ghostAgents.py:RandomGhost.getDistribution", "Python/research/scripts/demo/ghostAgents.py:DirectionalGhost.getDistribution", "Python/research/scripts/demo/keyboardAgents.py:KeyboardAgent.getAction"]}
{"id": "C56", "title": "Stacks, queues, priority queues and matrices of the demo behave as specified", "statement": "Every sequence of operations on a Queue returns the pushed items in order and on a Stack in nested order, raising exactly when empty. Every run of a PriorityQueue is a run of a specification over a list in insertion order: pop takes the earliest item of least priority, update lowers one occurrence in its place or inserts; filling and emptying is a stable sort. update of a PriorityQueueWithFunction raises TypeError exactly for new items. arrayInvert is the transpose exactly for matrices whose rows are not longer than their number; matrixAsList lists the matching cells in row order. isEmpty is true exactly if there is nothing to pop. A queue with a priority function, filled and emptied, sorts by the function, stably.", "quantifier": "all sequences of operations, all implementations of heapq that keep its contract, all matrices", "why_tests_cant": "unbounded sequences of operations and arbitrary heap orders", "anchors": ["Python/research/scripts/demo/util.py:Stack", "Python/research/scripts/demo/util.py:Queue", "Python/research/scripts/demo/util.py:PriorityQueue", "Python/research/scripts/demo/util.py:PriorityQueueWithFunction", "Python/research/scripts/demo/util.py:arrayInvert", "Python/research/scripts/demo/util.py:matrixAsList"]}
{"id": "C59", "title": "The relation graph of a Bayesian network computes the distribution of the network", "statement": "For every network whose tables fit, make_relation_graph returns exactly if all probabilities times the factor are positive integers and raises AssertionError otherwise; the outcomes are the assignments of each variable and its parents, counted with their conditional probability. Whenever make_joined returns, the relative counts are the joint distribution (product of the conditional probabilities) and the marginals after observing any variables are the posterior distributions; it returns if the families form a tree and never if the network falls apart. The comparisons succeed exactly if the other side has these distributions. Variables without common ancestors are independent; the checks of d-separation succeed on the student network for all iteration orders. On every network of tree shape with the five variables, comparing_d_separation succeeds exactly if the distribution has the four (in)dependences, and raises AssertionError otherwise. For the student network of the experiment with intelligence observed, the probabilities returned are given as numbers.", "quantifier": "all networks, tables, factors, iteration orders, observed variables and results of the other library", "why_tests_cant": "the experiment compares one network with one iteration order; the claim is about every network and order", "anchors": ["Python/research/scripts/experiments/comparing_with_bayes_network.py:_value_combination", "Python/research/scripts/experiments/comparing_with_bayes_network.py:_value_map_from_cpd", "Python/research/scripts/experiments/comparing_with_bayes_network.py:_build_outcome", "Python/research/scripts/experiments/comparing_with_bayes_network.py:make_relation_graph", "Python/research/scripts/experiments/comparing_with_bayes_network.py:_value_map_from_factor", "Python/research/scripts/experiments/comparing_with_bayes_network.py:_value_map_from_graph", "Python/research/scripts/experiments/comparing_with_bayes_network.py:_normalize", "Python/research/scripts/experiments/comparing_with_bayes_network.py:_marginals_from_factor", "Python/research/scripts/experiments/comparing_with_bayes_network.py:_compare_margin_map", "Python/research/scripts/experiments/comparing_with_bayes_network.py:_compare_values_map", "Python/research/scripts/experiments/comparing_with_bayes_network.py:comparing_joint_probability", "Python/research/scripts/experiments/comparing_with_bayes_network.py:_run_inference_on", "Python/research/scripts/experiments/comparing_with_bayes_network.py:comparing_inference", "Python/research/scripts/experiments/comparing_with_bayes_network.py:comparing_d_separation"]}
{"id": "C60", "title": "The relation graph of a Markov network computes the distribution of the network", "statement": "For every pairwise network with four numbers per edge, make_relation_graph returns exactly if all numbers are positive and raises AssertionError otherwise; the outcomes are the assignments of both ends of each edge, counted with the number of the factor. Whenever make_joined returns, the outcomes are all assignments counted with the product of the factors, so the comparisons of the joint distribution and of the inference on one variable succeed; otherwise AssertionError is raised. make_joined returns, for all iteration orders, for trees and for connected networks with at most two edges at each variable, and never for networks that fall apart. If the observed variables separate two sets of variables, observing more variables of one set does not change the distributions in the other; both separation checks succeed. On the network of the script all four checks succeed for all iteration orders. The four checks decide: on every network (for the checks on graphs: whenever the graph is joined) they succeed exactly if the distributions compared are equal, also when the graph was made of other factors, and raise AssertionError otherwise. The joined graph of the experiment counts each of its sixteen outcomes as computed by hand.", "quantifier": "all pairwise networks, factor values, iteration orders, observed and separating variables", "why_tests_cant": "the script checks one network with one iteration order; the claim is about every network and order", "anchors": ["Python/research/scripts/experiments/comparing_with_markov_network.py:make_relation_graph", "Python/research/scripts/experiments/comparing_with_markov_network.py:_normalize", "Python/research/scripts/experiments/comparing_with_markov_network.py:_get_markov_prop", "Python/research/scripts/experiments/comparing_with_markov_network.py:_get_relation_graph_prop", "Python/research/scripts/experiments/comparing_with_markov_network.py:comparing_variable_joint_probability", "Python/research/scripts/experiments/comparing_with_markov_network.py:comparing_inference", "Python/research/scripts/experiments/comparing_with_markov_network.py:markov_separation", "Python/research/scripts/experiments/comparing_with_markov_network.py:relation_graph_separation"]}
{"id": "C61", "title": "Joining outcomes where combinations were not observed, and the networks of the coin toss examples", "statement": "If the factors of the outcomes form a tree and each factor with edges has every observed value of its variables (not necessarily every combination), make_joined returns for all iteration orders the same outcomes: exactly the consistent choices of one outcome of each factor, where a factor of single nodes counts 1 for a value it lacks, with the product of the counts. build_relation_net accepts exactly the non-empty lists of texts of one toss or of two tosses of different coins; each outcome is counted as often as its result was observed, two results give the same outcome exactly if the same sides came in the same order, and describe_relation_net lists the relative frequencies. The conditional network of any results keeps the outcomes where the evidence was observed and those of the third coin alone. The joint network of the experiment is all heads with count 6 and all tails with count 1, for all iteration orders.", "quantifier": "all sets of outcomes on trees with valued factors, all lists of texts, all iteration orders", "why_tests_cant": "the scripts run one experiment and print the result; what is accepted and what is joined is a claim about every list of results and every iteration order", "anchors": ["Python/research/scripts/relnet/relation_graph.py:RelationGraph.make_joined", "Python/research/scripts/examples/building_net_from_coin_toss.py:build_outcome", "Python/research/scripts/examples/building_net_from_coin_toss.py:build_relation_net", "Python/research/scripts/examples/building_net_from_coin_toss.py:describe_relation_net", "Python/research/scripts/examples/building_net_with_joint_probability.py", "Python/research/scripts/examples/building_net_with_conditional_probability.py"]}
{"id": "C62", "title": "Equality and hashing of game states", "statement": "Two game states are equal exactly when the positions, directions and timers of the agents, the food cells, the ordered capsules and the scores agree; this is an equivalence relation and equal states have equal hashes, whatever hash functions Python uses for numbers, strings and tuples. All states of a game share layout, starts and kinds of agents; two equal open states of one game have the same legal actions and, for every sequence of moves, the same error or equal outcomes. Equal states are both won or both not won, but a lost state can equal an open one.", "quantifier": "all states, all hash functions, all finite sequences of moves", "why_tests_cant": "interchangeability quantifies over all pairs of runs and all continuations", "anchors": ["Python/research/scripts/demo/game.py:Configuration.__eq__", "Python/research/scripts/demo/game.py:Configuration.__hash__", "Python/research/scripts/demo/game.py:AgentState.__eq__", "Python/research/scripts/demo/game.py:AgentState.__hash__", "Python/research/scripts/demo/game.py:Grid.__eq__", "Python/research/scripts/demo/game.py:Grid.__hash__", "Python/research/scripts/demo/game.py:GameStateData.__eq__", "Python/research/scripts/demo/game.py:GameStateData.__hash__", "Python/research/scripts/demo/pacman.py:GameState.__eq__", "Python/research/scripts/demo/pacman.py:GameState.__hash__", "Python/research/scripts/demo/pacman.py:GameState.generateSuccessor"]}
{"id": "C63", "title": "Game states do not disturb each other", "statement": "States consist of objects, some of them shared between states. However a program makes initial states, successors and copies from one another, each call succeeds or fails exactly as on immutable values, and each state keeps the value it had when it was made (and so its equality, hash and legal actions), except for the list of eaten agents: a move of a ghost goes on with the list object of the state before and deepCopy shares it, so a ghost eaten in its own move is marked in earlier states too, back to the last move of Pacman. Nothing that happens depends on the marks.", "quantifier": "all initial heaps, all finite programs of initialisations, moves and copies", "why_tests_cant": "quantifies over all programs; a disturbance shows only in particular combinations of later calls", "anchors": ["Python/research/scripts/demo/game.py:AgentState.copy", "Python/research/scripts/demo/game.py:Grid.copy", "Python/research/scripts/demo/game.py:Grid.shallowCopy", "Python/research/scripts/demo/game.py:GameStateData.__init__", "Python/research/scripts/demo/game.py:GameStateData.deepCopy", "Python/research/scripts/demo/game.py:GameStateData.copyAgentStates", "Python/research/scripts/demo/game.py:GameStateData.initialize", "Python/research/scripts/demo/pacman.py:GameState.generateSuccessor", "Python/research/scripts/demo/pacman.py:GameState.deepCopy", "Python/research/scripts/demo/pacman.py:PacmanRules.applyAction", "Python/research/scripts/demo/pacman.py:PacmanRules.consume", "Python/research/scripts/demo/pacman.py:GhostRules.applyAction", "Python/research/scripts/demo/pacman.py:GhostRules.decrementTimer", "Python/research/scripts/demo/pacman.py:GhostRules.checkDeath", "Python/research/scripts/demo/pacman.py:GhostRules.collide", "Python/research/scripts/demo/pacman.py:GhostRules.placeGhost"]}
{"id": "C64", "title": "Rounding of floats in the probabilities", "statement": "With IEEE double precision (round to nearest, ties to even) in place of exact numbers, probabilities(), probability_of, marginal_variables_probability, marginal_distribution and similarity return the exact results rounded once per entry, in [0, 1]; the assertions that the sum is close to 1 hold in spite of rounding for any iteration order, up to 8999999 items with the sum() of Python up to 3.11 and 2^37 items with the compensated sum() since 3.12; activation_graph has the same edges, nodes and keys, its weights are in [0, 1] with a relative error of at most (1 + 2^-53)^(k+3) - 1 for k different outcomes. Some tolerance is needed, and without a bound on the number of samples the assertion can fail for a correct sample set.", "quantifier": "all sample sets and spaces within the stated size bounds, all iteration orders, both variants of sum", "why_tests_cant": "rounding errors depend on all counts and on the iteration order of hashed sets, which changes from run to run", "anchors": ["Python/research/scripts/relnet/sample_set.py:SampleSet.probabilities", "Python/research/scripts/relnet/sample_set.py:SampleSet.probability_of", "Python/research/scripts/relnet/sample_space.py:SampleSpace.marginal_variables_probability", "Python/research/scripts/relnet/folded_graph.py:FoldedNode.marginal_distribution", "Python/research/scripts/relnet/sample_graph.py:SampleGraph.similarity", "Python/research/scripts/relnet/conditional_graph.py:ConditionalGraph.activation_graph", "Python/research/scripts/experiments/comparing_with_bayes_network.py:make_relation_graph"]}
{"id": "C65", "title": "Recursion depth", "statement": "external_nodes raises RecursionError exactly when a node is as many steps away from the internal nodes as nested calls are possible. trace of is_edges_connected needs at most one call more than there are nodes, at least two more than the distance of the farthest node from the start, and exactly nodes + 1 when any two nodes are linked. join_edges stays within d nested calls for every iteration order exactly when each edge of the joined sample is fewer than d steps away from the builder or, when the builder is empty, any two edges of the sample are fewer than d steps away from each other. group of group_intersecting nests one call per merged pair: at most K - F and at least (K - F)/2 merges for K different sets of linked pairs and F groups, exactly K - F when no sample is lost. Where the limit is not reached it makes no difference to the result.", "quantifier": "all graphs, builders and sample sets, all limits, all iteration orders", "why_tests_cant": "the depth depends on the size and shape of the data and on the iteration order of hashed sets", "anchors": ["Python/research/scripts/relnet/sample_graph.py:SampleGraph.external_nodes", "Python/research/scripts/relnet/sample_graph.py:SampleGraphBuilder.is_edges_connected", "Python/research/scripts/relnet/sample_graph.py:SampleGraphBuilder.join_sample", "Python/research/scripts/relnet/sample_set.py:SampleSet.group_intersecting"]}
{"id": "C66", "title": "Drawings", "statement": "The network drawn by SampleGraph.visualize shows every node and every edge of the sample once, when different nodes have different string ids. visualize_outcomes raises IndexError exactly when the empty sample is an outcome; otherwise, when the numbered ids are distinct, every node and edge of every outcome and of the evidence is drawn once and labelled with its text. FoldedGraph.visualize and ActivationGraph.visualize never raise; every declared variable is drawn once; two variables are joined, once, iff an outcome (or the evidence) relates them; labels list exactly the texts of values and relations with their counts or activations; gray are the variables of no outcome, green those of the evidence, and the other colours are two digit hexadecimal shades of the largest activation. The texts in the labels are independent of the model's helpers: counts are decimal numerals, a counted text is the text followed by its count in brackets, parts are separated by the separator, and the colours are \"red\", \"green\", \"black\" and \"gray\".", "quantifier": "all samples, sample spaces, texts of components and iteration orders", "why_tests_cant": "drawings are files that no test looks at; collisions of ids depend on values and on the iteration order", "anchors": ["Python/research/scripts/relnet/sample_graph.py:SampleGraph.visualize", "Python/research/scripts/relnet/sample_space.py:SampleSpace.visualize_outcomes", "Python/research/scripts/relnet/folded_graph.py:FoldedGraph.visualize", "Python/research/scripts/relnet/activation_graph.py:ActivationGraph.visualize"]}
{"id": "C67", "title": "Manual Bayesian inference on tables", "statement": "For tables with exactly one common variable cpd_product is the product of factors; without a common variable it is empty, and with two or more it has keys with two values of one variable. norm divides by the sum and raises ZeroDivisionError exactly if there are entries with sum 0. margin is the marginal if the name of the variable is part of its own values only, otherwise it depends on iteration order. The script computes, for any tables of a network D -> G <- I and any observed values, the joint distribution and the three conditional distributions; with conditional distributions as tables the margins on D and I are the priors.", "quantifier": "all tables (any numbers of values, partial tables included), all observed values, all iteration orders", "why_tests_cant": "the script prints one network and checks nothing", "anchors": ["Python/research/scripts/playaround/pgmpy_bayes_net_test.py:manual_bayes_net_test", "Python/research/scripts/playaround/pgmpy_bayes_net_test.py:manual_bayes_net_test.cpd_product", "Python/research/scripts/playaround/pgmpy_bayes_net_test.py:manual_bayes_net_test.norm", "Python/research/scripts/playaround/pgmpy_bayes_net_test.py:manual_bayes_net_test.margin", "Python/research/scripts/playaround/pgmpy_bayes_net_test.py:manual_bayes_net_test.select_value"]}
{"id": "C68", "title": "Names, descriptions and edge set views of sample spaces", "statement": "A relation graph has the given non-empty name or a default name which tells the total count; builder() hands the name on through any additions, so a default name becomes false once the total changes; builder().build() and relation_graph() give the outcomes back without the evidence, the former raising exactly for no outcomes. describe() of a relation graph tells the exact numbers of declared variables and relations and the total count, with exactly their texts, fewer texts exactly if two texts coincide; describe() of a conditional graph returns for well formed evidence and tells exactly the occurring variables and relations. outcomes_as_edges_sets determines the outcomes with their counts. The texts of the builders determine name and sizes. After any calls of set_name and add_outcome on a builder the name is the one set last and the content is that of add_outcome alone. In the text of a builder a missing name cannot be told from the name None, all other names can be told apart; a new relation graph builder without a name prints RelationGraphBuilder(name = None, len(outcomes) = 0). The builder of a graph counts its identifiers from 1.", "quantifier": "all schemas, spaces of well formed outcomes, names, sequences of added outcomes, texts of labels, iteration orders", "why_tests_cant": "tests compare a few fixed descriptions; injectivity of the views and of the texts and independence from set order concern all spaces", "anchors": ["Python/research/scripts/relnet/relation_graph.py:RelationGraph.describe", "Python/research/scripts/relnet/relation_graph.py:RelationGraph.__init__", "Python/research/scripts/relnet/relation_graph.py:RelationGraphBuilder.__repr__", "Python/research/scripts/relnet/relation_graph.py:RelationGraphBuilder.set_name", "Python/research/scripts/relnet/conditional_graph.py:ConditionalGraph.describe", "Python/research/scripts/relnet/sample_space.py:SampleSpace.outcomes_as_edges_sets", "Python/research/scripts/relnet/sample_space.py:SampleSpace.builder", "Python/research/scripts/relnet/sample_space.py:SampleSpace.relation_graph", "Python/research/scripts/relnet/sample_graph.py:SampleGraphBuilder.__repr__"]}
{"id": "C69", "title": "Conditioning, uniting and scaling obey the laws of probability", "statement": "The probability stated by a conditional graph is the share of the value among the outcomes that have the variable and contain the evidence or none of its variables; if all outcomes have a variable of the evidence this is the conditional probability. In graphs all of whose outcomes have two variables (for instance is_joined graphs) Bayes' theorem and the law of total probability hold for the stated numbers, and conditioning on two pieces of evidence one after the other is conditioning on their union; otherwise the laws can fail. The probabilities of a union are the averages weighted by the number of outcomes having the variable. Multiplying all counts by the same number changes no outcome probability, marginal, conditional marginal or activation weight.", "quantifier": "all spaces with positive counts and single valued outcomes, all evidence, all values, all iteration orders", "why_tests_cant": "the laws relate the results of several calls for arbitrary spaces; tests compare single results with fixed numbers", "anchors": ["Python/research/scripts/relnet/sample_space.py:SampleSpace.marginal_variables_probability", "Python/research/scripts/relnet/relation_graph.py:RelationGraph.conditional_graph", "Python/research/scripts/relnet/sample_set.py:SampleSet.union", "Python/research/scripts/relnet/sample_set.py:SampleSet.probability_of", "Python/research/scripts/relnet/conditional_graph.py:ConditionalGraph.activation_graph", "Python/research/scripts/relnet/relation_graph.py:RelationGraph.is_joined"]}
{"id": "C70", "title": "Sampling with floating point weights in the demo", "statement": "With the rounding of IEEE doubles (Python before and since 3.12), util.sample returns the index whose interval of exact shares, widened by 5n/2^53, contains the random number, and the index of the exact computation unless the number is that near to a boundary; for r > 0 it never returns an index of weight zero; it raises IndexError exactly if the random number exceeds the last accumulated total, which needs r > 1 - 5n/2^53 and does occur for numbers that random.random() returns (seven weights 1/7). The same holds for nSample (IndexError) and chooseFromDistribution (None). A RandomGhost, and a DirectionalGhost with the default probabilities, always choose a legal action, with probabilities within 2^-50 of the exact ones, so the demo never crashes; a DirectionalGhost with probability 0.7 can crash. Normalising a counter of floats divides each value by the computed sum with one rounding and changes nothing if that sum is zero.", "quantifier": "all lists of at most 2^20 non-negative floats not all zero, all random numbers k/2^53, all game states, both summation algorithms", "why_tests_cant": "the failing random numbers have probability 2^-53 each; no test meets them, and the absence of failures in the demo needs all states and all random numbers", "anchors": ["Python/research/scripts/demo/util.py:sample", "Python/research/scripts/demo/util.py:nSample", "Python/research/scripts/demo/util.py:chooseFromDistribution", "Python/research/scripts/demo/util.py:normalize", "Python/research/scripts/demo/util.py:Counter.normalize", "Python/research/scripts/demo/ghostAgents.py:GhostAgent.getAction", "Python/research/scripts/demo/ghostAgents.py:RandomGhost.getDistribution", "Python/research/scripts/demo/ghostAgents.py:DirectionalGhost.getDistribution"]}
{"id": "C71", "title": "The screen of the demo follows the game", "statement": "From the start of a game with at most five ghosts, PacmanGraphics.initialize succeeds, and for every sequence of moves the rules allow, all calls of update succeed and the visible items of the canvas are, in order, exactly the background, the walls, the food that is left, the capsules that are left, the agents and the score; each agent is drawn (place, direction, mouth or eyes, colour) as it was right after its own last move, so Pacman is always up to date and everything is whenever it is Pacman's turn. In between the screen can lag: a ghost keeps its colour after Pacman ate the capsule, and an eaten ghost is still drawn where it was eaten. With more than five ghosts initialize raises IndexError. If an agent changed its kind, its old picture disappears, everything else stays, and the new picture is drawn with new identifiers before the agent is moved.", "quantifier": "all layouts with a border, all numbers of ghosts up to five, all sequences of moves, both kinds of animation, all grid sizes", "why_tests_cant": "the display keeps images by position in lists and by item numbers of tkinter that are deleted and created again; that no interleaving of eaten food, capsules and ghosts confuses them is a statement about all games, and tests would need a window", "anchors": ["Python/research/scripts/demo/graphicsDisplay.py:PacmanGraphics.initialize", "Python/research/scripts/demo/graphicsDisplay.py:PacmanGraphics.startGraphics", "Python/research/scripts/demo/graphicsDisplay.py:PacmanGraphics.drawStaticObjects", "Python/research/scripts/demo/graphicsDisplay.py:PacmanGraphics.drawAgentObjects", "Python/research/scripts/demo/graphicsDisplay.py:PacmanGraphics.swapImages", "Python/research/scripts/demo/graphicsDisplay.py:PacmanGraphics.update", "Python/research/scripts/demo/graphicsDisplay.py:PacmanGraphics.make_window", "Python/research/scripts/demo/graphicsDisplay.py:PacmanGraphics.drawPacman", "Python/research/scripts/demo/graphicsDisplay.py:PacmanGraphics.getEndpoints", "Python/research/scripts/demo/graphicsDisplay.py:PacmanGraphics.movePacman", "Python/research/scripts/demo/graphicsDisplay.py:PacmanGraphics.animatePacman", "Python/research/scripts/demo/graphicsDisplay.py:PacmanGraphics.getGhostColor", "Python/research/scripts/demo/graphicsDisplay.py:PacmanGraphics.drawGhost", "Python/research/scripts/demo/graphicsDisplay.py:PacmanGraphics.moveEyes", "Python/research/scripts/demo/graphicsDisplay.py:PacmanGraphics.moveGhost", "Python/research/scripts/demo/graphicsDisplay.py:PacmanGraphics.getPosition", "Python/research/scripts/demo/graphicsDisplay.py:PacmanGraphics.getDirection", "Python/research/scripts/demo/graphicsDisplay.py:PacmanGraphics.to_screen", "Python/research/scripts/demo/graphicsDisplay.py:PacmanGraphics.drawWalls", "Python/research/scripts/demo/graphicsDisplay.py:PacmanGraphics.isWall", "Python/research/scripts/demo/graphicsDisplay.py:PacmanGraphics.drawFood", "Python/research/scripts/demo/graphicsDisplay.py:PacmanGraphics.drawCapsules", "Python/research/scripts/demo/graphicsDisplay.py:PacmanGraphics.removeFood", "Python/research/scripts/demo/graphicsDisplay.py:PacmanGraphics.removeCapsule", "Python/research/scripts/demo/graphicsDisplay.py:InfoPane.__init__", "Python/research/scripts/demo/graphicsDisplay.py:InfoPane.toScreen", "Python/research/scripts/demo/graphicsDisplay.py:InfoPane.drawPane", "Python/research/scripts/demo/graphicsDisplay.py:InfoPane.updateScore", "Python/research/scripts/demo/graphicsUtils.py:formatColor", "Python/research/scripts/demo/graphicsUtils.py:colorToVector", "Python/research/scripts/demo/graphicsUtils.py:polygon", "Python/research/scripts/demo/graphicsUtils.py:circle", "Python/research/scripts/demo/graphicsUtils.py:line", "Python/research/scripts/demo/graphicsUtils.py:text", "Python/research/scripts/demo/graphicsUtils.py:edit", "Python/research/scripts/demo/graphicsUtils.py:moveCircle", "Python/research/scripts/demo/graphicsUtils.py:remove_from_screen", "Python/research/scripts/demo/graphicsUtils.py:move_to", "Python/research/scripts/demo/graphicsUtils.py:move_by"]}
{"id": "C72", "title": "The outline of the walls", "statement": "drawWalls draws, in every corner of every wall cell, exactly one of five shapes depending on the three neighbouring cells of the corner. The outlines are closed: wherever a line or an arc ends, another one ends within two pixels. The outline passes between each wall and each neighbouring cell that is no wall, nothing is drawn for a wall surrounded by walls, and the outline keeps at least 0.05 cells away from all cells that are not walls; therefore, from 20 pixels per cell on, no agent, dot or capsule ever touches the walls on the screen during a game.", "quantifier": "all rectangular mazes (with or without a border), all positions, all grid sizes above 20 pixels, all sequences of moves", "why_tests_cant": "there are 256 neighbourhoods of a cell, and whether the pieces of adjacent cells fit together depends on the cells around both; looking at a few mazes does not cover this", "anchors": ["Python/research/scripts/demo/graphicsDisplay.py:PacmanGraphics.drawWalls", "Python/research/scripts/demo/graphicsDisplay.py:PacmanGraphics.isWall", "Python/research/scripts/demo/graphicsDisplay.py:PacmanGraphics.to_screen", "Python/research/scripts/demo/graphicsDisplay.py:PacmanGraphics.to_screen2", "Python/research/scripts/demo/graphicsDisplay.py:PacmanGraphics.drawPacman", "Python/research/scripts/demo/graphicsDisplay.py:PacmanGraphics.drawGhost", "Python/research/scripts/demo/graphicsDisplay.py:PacmanGraphics.drawFood", "Python/research/scripts/demo/graphicsDisplay.py:PacmanGraphics.drawCapsules", "Python/research/scripts/demo/graphicsDisplay.py:add", "Python/research/scripts/demo/graphicsUtils.py:circle", "Python/research/scripts/demo/graphicsUtils.py:line"]}
{"id": "C73", "title": "The text of a game state", "statement": "In every state of every game on a bordered layout with a Pacman, printing the state succeeds and gives, row by row from the top, 'o' for a capsule, else the character of the last agent whose nearest cell it is, else '.', '%' or a blank for food, wall or nothing, and then the score. The text of the initial state is the text of the layout with '<' for Pacman, 'G' for every ghost and blanks for unknown characters. Read as a layout again, the rows give the same walls and capsules, the food except under agents, the visible ghosts, and no Pacman. Two states have equal texts iff scores and all characters agree. While the game goes on Pacman is visible unless a ghost standing unscared at its start is drawn over it; a ghost on a capsule is not visible. Grids of booleans are printed injectively.", "quantifier": "all bordered layouts with a Pacman, all numbers of ghosts, all sequences of moves; all rectangular layouts for the initial state; all grids", "why_tests_cant": "the text depends on the order of overwriting and on half positions of scared ghosts, and whether Pacman can be hidden depends on the collisions in the whole history of the game", "anchors": ["Python/research/scripts/demo/game.py:GameStateData.__str__", "Python/research/scripts/demo/game.py:GameStateData._foodWallStr", "Python/research/scripts/demo/game.py:GameStateData._pacStr", "Python/research/scripts/demo/game.py:GameStateData._ghostStr", "Python/research/scripts/demo/game.py:GameStateData.initialize", "Python/research/scripts/demo/game.py:Grid.__str__", "Python/research/scripts/demo/layout.py:Layout.__str__", "Python/research/scripts/demo/pacman.py:GameState.__str__", "Python/research/scripts/demo/util.py:nearestPoint"]}
{"id": "C74", "title": "Finding and loading a layout", "statement": "getLayout looks in the current directory and in as many directories above as back allows (three by default), in each first for layouts/NAME.lay and then for NAME.lay, and the first existing place decides: if it can be parsed its layout is the result, otherwise an exception is raised; if no place exists the result is None. Whenever no exception is raised the current directory is as before; after an exception the program stays in the directory of the broken file. A text is refused, with IndexError, exactly if it has no lines or a line shorter than the first one; what exceeds the first line's length in other lines has no effect. Lines are taken without white space at their ends. A layout that is printed to a file is found again as an equal layout when its lines have no outer white space, and the demo loads its layout.", "quantifier": "all file systems, directories, names and values of back; all texts", "why_tests_cant": "the result depends on files in several directories, on the order of the search and on the directory left by nested calls that raise", "anchors": ["Python/research/scripts/demo/layout.py:getLayout", "Python/research/scripts/demo/layout.py:tryToLoad", "Python/research/scripts/demo/layout.py:Layout.__init__", "Python/research/scripts/demo/layout.py:Layout.processLayoutText", "Python/research/scripts/demo/layout.py:Layout.__str__"]}
{"id": "C75", "title": "The command line and a session of games", "statement": "Agent arguments are accepted exactly when no piece between commas has more than one equals sign, and give the last value of each name, a bare name standing for 1. loadAgent takes the first importable module, in the order of PYTHONPATH and the current directory, whose file ends with gents.py and which has the name. With the files of the repository the command line is accepted exactly when the layout is found and correct, no text mode and no training games are asked for, Pacman's class takes the arguments as keywords, and the ghosts' class takes a number or there are no ghosts; so the modes -t, -q and -x never work. A session stops at the first game that raises, with the earlier games recorded and no report; otherwise it records every game, returns those after training and reports them; it divides by zero exactly if no game is asked for and numTraining is smaller still. The report agrees with the games, and for games that came to an end replaying the recorded moves gives the reported score and result, a crashed game being reported as a loss. Two records have the same name exactly if the time from the day on agrees and the digits of number and month run together agree.", "quantifier": "all texts, surroundings, options, numbers of games, games and times", "why_tests_cant": "the offered modes, module paths and game outcomes cannot be enumerated, and names clash only for special numbers and months", "anchors": ["Python/research/scripts/demo/pacman.py:parseAgentArgs", "Python/research/scripts/demo/pacman.py:loadAgent", "Python/research/scripts/demo/pacman.py:readCommand", "Python/research/scripts/demo/pacman.py:runGames"]}
{"id": "C76", "title": "The comparison with Markov networks in floating point", "statement": "With every operation rounded, numpy adding in any order with any brackets and both variants of Python's sum: if the sum of the weights is at most 2^53, comparing_inference, markov_separation and relation_graph_separation succeed with == on floats whenever they succeed in exact arithmetic. comparing_variable_joint_probability normalises its factor twice, so it succeeds exactly if dividing the rounded probabilities by the float they add up to changes none of them, in particular if they add up to one or if the sum of the weights is a power of two; otherwise it raises AssertionError. For one edge with the values 8, 9, 9, 9 it fails in every order of adding, although both distributions are the same. For the network of the experiment it succeeds when adding from left to right and fails from right to left; its other comparisons succeed in every order. The float version of markov_separation succeeds exactly if the nearest floats of the two distributions agree and raises AssertionError otherwise.", "quantifier": "all pairwise networks with weights up to 2^53 in total, all orders and brackets of addition, both variants of sum, all iteration orders", "why_tests_cant": "whether the doubly normalised floats agree depends on numbers and on the order in which a library adds, which a test fixes", "anchors": ["Python/research/scripts/experiments/comparing_with_markov_network.py:_normalize", "Python/research/scripts/experiments/comparing_with_markov_network.py:_get_markov_prop", "Python/research/scripts/experiments/comparing_with_markov_network.py:_get_relation_graph_prop", "Python/research/scripts/experiments/comparing_with_markov_network.py:comparing_variable_joint_probability", "Python/research/scripts/experiments/comparing_with_markov_network.py:comparing_inference", "Python/research/scripts/experiments/comparing_with_markov_network.py:markov_separation", "Python/research/scripts/experiments/comparing_with_markov_network.py:relation_graph_separation"]}
{"id": "C77", "title": "The Bayesian network experiment in floating point", "statement": "With every operation rounded: make_relation_graph succeeds exactly if every rounded product of a probability and prop_factor is a positive whole number, and raises AssertionError otherwise; for decimals whose exact products are whole numbers up to 2^50 the graph is the exact one or AssertionError is raised, never a graph with other counts. If prop_factor to the number of variables is at most 2^53, comparing_joint_probability succeeds exactly if every value of the factor of the query is isclose to the float nearest to the exact probability and every marginal that numpy adds up is isclose to the float nearest to the exact marginal; comparing_inference likewise with the posterior probabilities; otherwise they raise AssertionError. What is isclose here: deviations up to 8.88e-16 of the exact number pass, and what passes deviates by at most 1.112e-15 of it. For the network of the script the graph is the exact one and the checks of comparing_d_separation, which compare floats with == and !=, succeed for every iteration order and both variants of sum.", "quantifier": "all networks whose tables fit, factors, orders and brackets of addition in numpy, both variants of sum, all iteration orders", "why_tests_cant": "a test fixes one network, one order of addition and one version of Python", "anchors": ["Python/research/scripts/experiments/comparing_with_bayes_network.py:make_relation_graph", "Python/research/scripts/experiments/comparing_with_bayes_network.py:_normalize", "Python/research/scripts/experiments/comparing_with_bayes_network.py:_marginals_from_factor", "Python/research/scripts/experiments/comparing_with_bayes_network.py:_compare_margin_map", "Python/research/scripts/experiments/comparing_with_bayes_network.py:_compare_values_map", "Python/research/scripts/experiments/comparing_with_bayes_network.py:comparing_joint_probability", "Python/research/scripts/experiments/comparing_with_bayes_network.py:_run_inference_on", "Python/research/scripts/experiments/comparing_with_bayes_network.py:comparing_inference", "Python/research/scripts/experiments/comparing_with_bayes_network.py:comparing_d_separation"]}
{"id": "C78", "title": "The priority queue with the heap algorithms of CPython", "statement": "heappush, heappop and heapify of CPython, followed loop by loop, keep the contract that C56 asks for, for every comparison that is a strict weak order: heappush and heapify give a heap with the same elements, heappop raises IndexError exactly for the empty list and otherwise removes an element that is not greater than any other and leaves a heap. With them every run of PriorityQueue from the empty queue that does not raise is a run of the specification of C56, the entries always have different counts so that items are never compared, and filling and emptying is a stable sort.", "quantifier": "all lists, all strict weak orders, all sequences of operations", "why_tests_cant": "heaps of every size and shape", "anchors": ["Python/research/scripts/demo/util.py:PriorityQueue", "Python/research/scripts/demo/util.py:PriorityQueueWithFunction"]}
{"id": "C79", "title": "How large graphs make_joined can join within the recursion limit", "statement": "join_sample_set calls itself once for each sample set and join_factors once for each factor. With a limit d on nested calls of these two, join_factors that returns without a limit returns the same if list number i of outcomes (from 0) has at most d - 1 - i outcomes for each i, otherwise it raises RecursionError; make_joined gives the same as without a limit or raises RecursionError. For complete factors where each variable has two values or more and is in at most k factors, make_joined that returns within d has at most k*j+1 variables for some j with 2^j < d, for every order; so for factors that form a tree with more variables it raises RecursionError for every order, though it would return without a limit: a chain of 20 variables with two values fails for the default limit of 1000. The number of factors plus the number of returned outcomes is enough for d. A graph of one complete factor is returned unchanged exactly if each value is in fewer than d outcomes.", "quantifier": "all graphs with complete factors, all iteration orders, all limits", "why_tests_cant": "tests use graphs with few variables, far from the limit, and one order", "anchors": ["Python/research/scripts/relnet/relation_graph.py:make_joined", "Python/research/scripts/relnet/sample_set.py:SampleSetBuilder.join_sample_set"]}
{"id": "C80", "title": "Queries of a game state with any index, and the explored states", "statement": "With a natural number as agent index the queries and moves of a game state follow the rules, and a number beyond the agents is refused (IndexError for getGhostPosition). A negative index counts from the end: for n agents and 0 < k < n, k - n gives the same as k in getGhostState, getGhostPosition, getLegalActions and generateSuccessor, with the negative index kept in _agentMoved; below -n all raise IndexError. The index -n passes the check against Pacman but names Pacman: each move that is legal for it as a ghost loses the game for 500 points. getGhostStates and getGhostPositions list agents 1 to n-1. getAndResetExplored returns, after any calls, each state once (up to equality) that a successful generateSuccessor used or made since the last reset, and empties the set. getFood returns the grid itself, and a state made by the move of a ghost shares the rows with its predecessor, so writing through it changes both. getLegalPacmanActions lists exactly the actions for which generatePacmanSuccessor returns. In states of games hasFood and hasWall never fail inside the maze and agree with the lists of getFood and getWalls, getNumFood is the number of cells with food, and no wall is at Pacman's place; over any game getScore, getNumFood, isWin, isLose and getCapsules keep the account of C53: isWin exactly if there was food and none is left.", "quantifier": "all states, all integer indices, all sequences of calls", "why_tests_cant": "tests of the demo do not exist and agents only use natural indices", "anchors": ["Python/research/scripts/demo/pacman.py:GameState"]}
{"id": "C81", "title": "Time limits of functions", "statement": "A function called through TimeoutFunction with a limit of 0 < s < 2^31 seconds behaves as without limit if it ends before, otherwise TimeoutFunctionException is raised when the time is up; the handler of SIGALRM is restored. If it returned no alarm is pending, but if it raised an exception of its own the alarm stays pending, and a caller under the default handler that goes on is killed by it exactly if the rest of the limit passes. Sessions in which no timed function raises are never killed. A limit of 0 is no limit. Limits do not nest: after an inner timed call the outer limit is gone; a function that catches the exception of the timeout has no limit any more. Without SIGALRM the time is only looked at when the function returns. A negative limit s is one of 2^32 + s seconds. A limit that is no C int raises at once without calling the function, and leaves the handler of the timeout installed.", "quantifier": "all programs of the model, all limits, all times", "why_tests_cant": "signals and time need real waiting; the demo has no tests and does not use nested limits", "anchors": ["Python/research/scripts/demo/util.py:TimeoutFunction"]}
{"id": "C82", "title": "Games with time limits", "statement": "With catchExceptions and a limit of 0 < T < 2^31 seconds Game.run judges each turn exactly: observationFunction is interrupted at T, getAction at T minus the whole seconds of the observation; an interruption, a move of more than T and a total of more than T end the game with agentTimeout, an exception of the agent without; otherwise the time is charged and the action carried out. At any time the output goes to the console again, the game is not ended by SIGALRM, the charged times of a game that goes on add up to the time of all calls, no agent has more than T, and all calls together take less than n*T + T + 1 seconds; an alarm is left pending only after an exception of an agent. If each action takes time, every game ends. The game refines that of C55 with agents that raise when they are late. Without catchExceptions nothing is limited or charged, and an exception of a muted agent leaves the output of the process redirected. The agents are told the result in order, without limit, up to the first that raises, which makes a won game count as crashed. With a limit of 2^31 seconds or more nobody ever moves: the first agent that is to be called counts as crashed without having been called. With a limit of 0 or less nobody moves either: the agent is asked, without limit, and its answer is always too late.", "quantifier": "all agents, all times, all layouts, all numbers of turns, with and without catching and muting", "why_tests_cant": "the demo has no tests; time limits and crashes of agents need real waiting and are not used in the demo", "anchors": ["Python/research/scripts/demo/game.py:Game", "Python/research/scripts/demo/pacman.py:ClassicGameRules"]}
{"id": "C83", "title": "Pairwise networks that are joined whatever the hash order", "statement": "For a space whose outcomes have one or two variables each (a pairwise Markov network with potentials on single variables), with complete factors and two values or more for each variable, make_joined returns for every iteration order of the sets exactly if the graph of the variables is connected and has no cycle, or is connected and no variable is in three factors. In all other cases there is an iteration order for which it raises AssertionError.", "quantifier": "all spaces of outcomes with one or two variables, all numbers of variables and values, all iteration orders", "why_tests_cant": "the tests join a few small networks with whatever order the hash seed of the process gives; a statement on all orders and all graphs cannot be tested", "anchors": ["Python/research/scripts/relnet/relation_graph.py:RelationGraph.make_joined", "Python/research/scripts/relnet/sample_set.py:SampleSet.can_join_samples"]}
{"id": "C84", "title": "The exact condition for make_joined to return", "statement": "For a space with complete factors (of any number of variables), make_joined returns for a given iteration order exactly if all outcomes hang together and each variable, when those before it in the order are done, can be joined on: each variable with two values or more that is in two of the parts with this variable is in all of them, where two outcomes are in one part if a chain of outcomes of one factor or sharing a done variable links them. It returns for every order exactly if this holds for each variable and each set of variables done before it, and for some order exactly if the variables can be listed so that it holds.", "quantifier": "all spaces with complete factors, all numbers of variables, values and factors, all iteration orders", "why_tests_cant": "the condition is on chains of outcomes of any length and on all iteration orders of the sets, of which one run sees one", "anchors": ["Python/research/scripts/relnet/relation_graph.py:RelationGraph.make_joined", "Python/research/scripts/relnet/sample_set.py:SampleSet.can_join_samples"]}
{"id": "C85", "title": "Networks with a potential on each variable", "statement": "For a space with complete factors in which each variable has two values or more and outcomes of its own (a potential on this variable alone), make_joined returns exactly if the outcomes hang together and the factors form a tree with the variables (the number of places of variables in factors plus one is the number of variables plus the number of factors); it is the same for all iteration orders. For a pairwise network with a potential on each variable it returns exactly if the graph of the variables is connected and has no cycle, and raises AssertionError otherwise.", "quantifier": "all spaces with complete factors and outcomes on each single variable, all numbers of variables, values and factors, all iteration orders", "why_tests_cant": "a statement on all graphs and all orders of the sets; the tests have no network with potentials on single variables and a cycle", "anchors": ["Python/research/scripts/relnet/relation_graph.py:RelationGraph.make_joined", "Python/research/scripts/relnet/sample_set.py:SampleSet.can_join_samples"]}
{"id": "C86", "title": "Joining after observations", "statement": "For a space with complete factors and outcomes of its own for each variable, there is an iteration order for which make_joined returns exactly if the outcomes hang together and the factors, without the variables that have one value, form a forest. For a pairwise network with a potential on each variable: after conditioning on the values of any observed variables there is an iteration order for which make_joined returns exactly if the network is connected and each of its cycles has an observed variable.", "quantifier": "all spaces with complete factors and outcomes on each single variable, all numbers of variables, values and factors, all lists of observed values", "why_tests_cant": "a statement on all graphs, all sets of observed variables and the existence of an iteration order, of which one run sees one", "anchors": ["Python/research/scripts/relnet/relation_graph.py:RelationGraph.make_joined", "Python/research/scripts/relnet/relation_graph.py:RelationGraph.conditional_graph", "Python/research/scripts/relnet/sample_set.py:SampleSet.can_join_samples"]}
{"id": "C87", "title": "Overlays of the display", "statement": "For every sequence of calls of drawExpandedCells, clearExpandedCells, updateDistributions, updateGhostDistances and setTeam on a screen that begins with the background and the score (as the screen of a new display does), exceptions being caught: the screen shows the background, then, in some order, the squares of the last drawExpandedCells (if not cleared since) and, once updateDistributions was called, a black square for each cell of the maze where only cell (0, 0) has the colour of its beliefs; then the score, the other items and the distances. The first non-empty call of updateGhostDistances makes one text for each distance, at most five; later calls replace the first texts and leave the others. The calls of updateGhostDistances with more distances than that raise IndexError, all calls of setTeam raise TypeError, and no other call raises. The red part of the colours of n expanded cells goes down from 191 and is never below 63, the others are 63. A cell without belief is black; a cell where only one of the first five weights counts has the colour of that ghost (the first colour of the palette being left out), dimmed by 0.95 and the power of the weight; further weights do not matter.", "quantifier": "all sequences of calls with all arguments, all sizes of the maze, all screens beginning with background and score; at most 2**53 expanded cells for the colours", "why_tests_cant": "an invariant over all sequences of calls with all arguments; none of these functions is called in the repository", "anchors": ["Python/research/scripts/demo/graphicsDisplay.py:PacmanGraphics.drawExpandedCells", "Python/research/scripts/demo/graphicsDisplay.py:PacmanGraphics.clearExpandedCells", "Python/research/scripts/demo/graphicsDisplay.py:PacmanGraphics.drawDistributions", "Python/research/scripts/demo/graphicsDisplay.py:PacmanGraphics.updateDistributions", "Python/research/scripts/demo/graphicsDisplay.py:InfoPane.initializeGhostDistances", "Python/research/scripts/demo/graphicsDisplay.py:InfoPane.updateGhostDistances", "Python/research/scripts/demo/graphicsDisplay.py:InfoPane.setTeam"]}
{"id": "C88", "title": "joined_on_variables on several variables, with cycles", "statement": "For factorized outcomes (well formed, one value per variable) whose factors have a joint outcome, e.g. complete factors: joined_on_variables on a set of variables returns, whatever the iteration orders, exactly if the variables of the set that have outcomes of their own can be iterated and no two factors with edges have the same variables, one of the set among them. When it returns the outcomes are exactly the joins of one outcome of each factor of a part, where factors with a common variable of the set are in one part, and the count is the product; it does not depend on the order. Without argument and when the outcomes hang together the result is the product of all factors, and equals that of make_joined when that returns. A connected pairwise network is joined with whatever cycles it has, for every order, also where make_joined always raises AssertionError. Without a joint outcome the result depends on the iteration order.", "quantifier": "all factorized outcomes with a joint outcome, all sets of variables, all iteration orders, all numbers of variables, values and factors", "why_tests_cant": "an invariant of the loop over any set of variables in any order; cycles of factors of any length; the hash order cannot be chosen in a test", "anchors": ["Python/research/scripts/relnet/relation_graph.py:RelationGraph.joined_on_variables"]}
{"id": "C89", "title": "Exact inference in networks with cycles", "statement": "For outcomes with complete factors that hang together: if joined_on_variables (without argument) returns, it also returns after conditioning on any observed values of different variables, for every iteration order; the result has the joined outcomes that have the observed values, with the same counts. marginal_variables_probability of it then gives, for exactly the requested variables that occur and exactly the values that agree with the observations, the weight of the assignments of all variables with this value and the observed values divided by the weight of those with the observed values, where the weight of an assignment is the product of its counts in the factors. For a connected pairwise network with positive potentials, with whatever cycles, all of this always returns, also where make_joined always raises AssertionError.", "quantifier": "all networks of complete factors, all numbers of variables, values and factors, all lists of observed values, all iteration orders", "why_tests_cant": "a sum over all assignments of any number of variables, for every set of observations and every hash order", "anchors": ["Python/research/scripts/relnet/relation_graph.py:RelationGraph.conditional_graph", "Python/research/scripts/relnet/relation_graph.py:RelationGraph.joined_on_variables", "Python/research/scripts/relnet/sample_space.py:SampleSpace.marginal_variables_probability"]}
{"id": "C90", "title": "Observing several variables with one sample graph", "statement": "conditional_graph of a factorized relation graph with evidence that has an edge keeps, among the outcomes that have a variable of the evidence, only outcomes of one factor; every outcome of another factor stays exactly if it has no variable of the evidence. In a pairwise network evidence on two variables has therefore no influence on the probability stated for any other variable, whatever was observed, and with complete factors make_joined of the conditional graph raises AssertionError for every iteration order as soon as an outcome without the observed variables exists. If only one factor has variables of the evidence, conditioning and joined_on_variables is exact: it returns whenever joining returns and gives the joined outcomes that contain the evidence, with their counts.", "quantifier": "all factorized relation graphs (pairwise networks for the second part), all evidence graphs, all iteration orders", "why_tests_cant": "that no observation has any influence, for every network, every pair of observed variables and every hash order, is not something a set of examples can show", "anchors": ["Python/research/scripts/relnet/relation_graph.py:RelationGraph.conditional_graph", "Python/research/scripts/relnet/sample_space.py:SampleSpace.marginal_variables_probability", "Python/research/scripts/relnet/sample_set.py:SampleSet.union", "Python/research/scripts/relnet/sample_set.py:SampleSet.probability_of", "Python/research/scripts/relnet/conditional_graph.py:ConditionalGraph.activation_graph", "Python/research/scripts/relnet/relation_graph.py:RelationGraph.is_joined", "Python/research/scripts/relnet/relation_graph.py:RelationGraph.joined_on_variables", "Python/research/scripts/relnet/relation_graph.py:RelationGraph.make_joined"]}
{"id": "C91", "title": "Exact inference in floating point", "statement": "With the floats the program computes, observing values one variable after the other, joining with joined_on_variables and asking marginal_variables_probability never raises because of rounding and returns, for exactly the requested variables and the values that agree with the observations, the posterior of the product of the factors (by summation over all assignments) rounded once to the nearest float: in (0, 1], with a relative error of at most 2^-53, and one stated probability is greater than another only if the exact one is. This holds whenever joining the network without observations returns (for connected pairwise networks with positive potentials and whatever cycles: always), the weight of all assignments that agree with the observations is at most 2^1022 and no variable has more than 8999999 values (Python before 3.12) or 2^37 values. The weight is at most the number of assignments times the product of all counts plus one.", "quantifier": "all factorized relation graphs with complete connected factors and positive counts, all lists of observations of different variables, all requests, all iteration orders, both summation algorithms of Python", "why_tests_cant": "the assertion on the rounded sum and the order of rounded probabilities concern every network and every count; the sums of floats that are checked depend on hash order", "anchors": ["Python/research/scripts/relnet/relation_graph.py:RelationGraph.conditional_graph", "Python/research/scripts/relnet/relation_graph.py:RelationGraph.joined_on_variables", "Python/research/scripts/relnet/sample_space.py:SampleSpace.marginal_variables_probability", "Python/research/scripts/relnet/sample_set.py:SampleSet.probabilities", "Python/research/scripts/relnet/sample_set.py:SampleSet.probability_of", "Python/research/scripts/relnet/folded_graph.py:FoldedNode.marginal_distribution", "Python/research/scripts/relnet/sample_graph.py:SampleGraph.similarity", "Python/research/scripts/relnet/conditional_graph.py:ConditionalGraph.activation_graph", "Python/research/scripts/experiments/comparing_with_bayes_network.py:make_relation_graph"]}
{"id": "C92", "title": "joined_on_variables within the recursion limit", "statement": "With a limit d on nested calls, joined_on_variables returns what it returns with no limit, raises what it raises, or raises RecursionError. For factorized outcomes with a joint outcome a limit of k + 1 + p is enough for every order, where k is the largest number of factors of one of the join variables and p the number of linked pairs of variables; so connected pairwise networks with complete factors and whatever cycles are joined to the product of the potentials. A variable in d factors or more raises RecursionError with the limit d when joined on alone. For example, for a chain of m + 1 two-valued variables (m at least 19) make_joined raises RecursionError for every order within 1000 calls while joined_on_variables returns for every order within m + 3; for a star of m pairs joining on the centre raises within m calls and returns within 2m + 1.", "quantifier": "all factorized relation graphs, all limits, all sets of join variables, all iteration orders", "why_tests_cant": "stack depth depends on the size of the whole network; the tests use networks of two or three factors", "anchors": ["Python/research/scripts/relnet/relation_graph.py:RelationGraph.joined_on_variables", "Python/research/scripts/relnet/sample_graph.py:SampleGraph.external_nodes", "Python/research/scripts/relnet/sample_graph.py:SampleGraphBuilder.is_edges_connected", "Python/research/scripts/relnet/sample_graph.py:SampleGraphBuilder.join_sample", "Python/research/scripts/relnet/sample_set.py:SampleSet.group_intersecting"]}
{"id": "C93", "title": "Answers do not depend on hash seeds or insertion order", "statement": "Take two relation graphs with the same contents (same provider, declared values, relations, evidence and counts; the dictionaries may be filled in different orders), queried with whatever iteration orders of sets and dictionaries. Number of outcomes, variables and values, relations, is_factorized and is_joined are equal. find_for_values, conditional_graph, marginal_variables_probability with and without the unobserved part, folded_graph, factorized and activation_graph (on the graphs the builders and conditioning give) return results with the same contents or raise the same exception. joined_on_variables, for factorized outcomes with a joint outcome, returns in both or in neither, with the same contents. Two results of make_joined with complete factors have the same contents. Observing values, joining and asking for marginals gives the same posterior. Refuted: make_joined may return with one order and raise with another, and with incomplete factors two orders may give different outcomes.", "quantifier": "all pairs of relation graphs with the same contents, all pairs of families of iteration orders", "why_tests_cant": "a test process has one hash seed and one insertion order; the tests compare results of one run with literals", "anchors": ["Python/research/scripts/relnet/sample_space.py:SampleSpace.marginal_variables_probability", "Python/research/scripts/relnet/sample_space.py:SampleSpace.folded_graph", "Python/research/scripts/relnet/folded_graph.py:FoldedNode.unobserved_count", "Python/research/scripts/relnet/relation_graph.py:RelationGraph.conditional_graph", "Python/research/scripts/relnet/conditional_graph.py:ConditionalGraph.activation_graph", "Python/research/scripts/relnet/sample_graph.py:SampleGraph.external_nodes", "Python/research/scripts/relnet/relation_graph.py:RelationGraph.joined_on_variables", "Python/research/scripts/relnet/relation_graph.py:RelationGraph.make_joined", "Python/research/scripts/relnet/sample_set.py:SampleSet.can_join_samples"]}
{"id": "C94", "title": "Mouse clicks are reported once, in order, left before right", "statement": "Whatever a program does and whenever clicks arrive: wait_for_click waits exactly as long as there is no unreported click; it then returns the position of the last click of the first kind (left, right, left with control) of which there is one, forgets the earlier clicks of this kind and keeps those of the other kinds. Over any history the reported clicks of a kind are a subsequence of the clicks of this kind: none is reported twice or out of order. Without new clicks every kind is reported within three calls. Refuted: with a left click before every call a right click is never reported.", "quantifier": "all sequences of pauses and calls with any clicks in them", "why_tests_cant": "needs a window and a hand on the mouse; no test opens one", "anchors": ["Python/research/scripts/demo/graphicsUtils.py:wait_for_click", "Python/research/scripts/demo/graphicsUtils.py:_leftclick"]}
{"id": "C95", "title": "Muted prints", "statement": "For every sequence of calls of mutePrint and unmutePrint and of prints: if nothing else changes sys.stdout, exactly those prints are written which do not follow a call of mutePrint as the last call, and sys.stdout is afterwards what it was unless this last call is mutePrint. Calls do not nest: one unmutePrint ends any number of mutePrint. Whatever happens between mutePrint and the next unmutePrint, sys.stdout is restored to its value before. Refuted: what is printed while muted is never written (a change of sys.stdout in between makes it audible).", "quantifier": "all sequences of calls, prints and changes of sys.stdout", "why_tests_cant": "the functions are not called by the tests, and a test runner captures sys.stdout itself", "anchors": ["Python/research/scripts/demo/util.py:mutePrint", "Python/research/scripts/demo/util.py:unmutePrint"]}
{"id": "C96", "title": "Saved frames", "statement": "With SAVE_POSTSCRIPT, saving any number of pictures writes the i-th one under the name of the i-th number and changes no other file; different numbers have different names; without it nothing changes. Below 10^8 the names sort in the order of the frames, as the instruction for making an animation from frame* needs; refuted beyond: frame 10^8 sorts before frame 10^8 - 1.", "quantifier": "all starting numbers, directories and sequences of pictures; all pairs of numbers", "why_tests_cant": "a test would save a handful of frames; the order of names changes only at 10^8", "anchors": ["Python/research/scripts/demo/graphicsDisplay.py:saveFrame", "Python/research/scripts/demo/graphicsUtils.py:writePostscript"]}
{"id": "C97", "title": "Looking up a name", "statement": "lookup of a name without a dot returns what the name means in the given namespace and raises 'not found' exactly if it means nothing there; the search through imported modules finds nothing and the complaint about a conflict is never raised. With one dot the object of the module is found. With two dots the object is sought in the package, whatever the module contains.", "quantifier": "all names, namespaces and sets of modules", "why_tests_cant": "the function is not called by the tests; the text \"<type 'module'>\" was right in Python 2", "anchors": ["Python/research/scripts/demo/util.py:lookup"]}
{"id": "C98", "title": "Neighbours of a position", "statement": "For every position in any grid of walls, with or without a border, getLegalNeighbors lists without failure and once each the free cells at a distance of at most one from the nearest cell, this cell included. On cells off the border they are, in the same order, where the possible actions lead. On the left border getPossibleActions looks through the border: West is possible exactly if the last cell of the row is free. Right of the grid getLegalNeighbors raises IndexError; left of it a position has the neighbours of the border cell. isInteger is true exactly for integer coordinates, a whole step keeps this, and the reverse step leads back.", "quantifier": "all grids, positions and directions", "why_tests_cant": "the demo plays on mazes with a closed border only; no test calls these functions", "anchors": ["Python/research/scripts/demo/game.py:Actions.getLegalNeighbors", "Python/research/scripts/demo/game.py:Actions.getSuccessor", "Python/research/scripts/demo/game.py:Actions.getPossibleActions", "Python/research/scripts/demo/game.py:Configuration.isInteger"]}
{"id": "C99", "title": "The first person display follows the game and hides ghosts", "statement": "From the start of a game with at most five ghosts, FirstPersonPacmanGraphics.initialize succeeds, and for every sequence of moves the rules allow all calls of update succeed; what can be seen is the same as with PacmanGraphics (C71), except that, if showGhosts is False, a ghost which was above the first row after its own last move is drawn left of the window: every x of every item of its picture is negative. Pacman, ghosts in the first row and, with showGhosts, all ghosts are drawn where they are. Ghosts can go from hidden to seen and back any number of times. The picture of an agent that changed its kind is replaced in the same way.", "quantifier": "all layouts with a border, all numbers of ghosts up to five, all sequences of moves, both values of showGhosts, both kinds of animation, all positive grid sizes", "why_tests_cant": "the class is not used by the demo and needs Tk; moving an image between far away and the maze adds differences of places, which tests could check for a few games only", "anchors": ["Python/research/scripts/demo/graphicsDisplay.py:FirstPersonPacmanGraphics.initialize", "Python/research/scripts/demo/graphicsDisplay.py:FirstPersonPacmanGraphics.getPosition", "Python/research/scripts/demo/graphicsDisplay.py:FirstPersonPacmanGraphics.getGhostColor", "Python/research/scripts/demo/graphicsDisplay.py:PacmanGraphics.update", "Python/research/scripts/demo/graphicsDisplay.py:PacmanGraphics.moveGhost"]}
{"id": "C100", "title": "Texts of nodes and edges of folded and activation graphs", "statement": "When texts of variables, values, relations and floats can be told apart, the texts of nodes and edges of variables graphs, folded graphs and activation graphs do not depend on the order in which sets are visited (for edges: when the two variables are ordered by <). Two nodes of the same class have the same text exactly when they are equal, and so do two edges of a variables graph or of an activation graph. Two folded edges have the same text exactly when they have the same endpoints and the same relations with the same counts, each as often; so different folded edges can have the same text. In the folded graph of a space no two nodes and no two edges have the same text. If comparing the variables raises TypeError, so does the text of each edge between them; if neither is less than the other the text of an edge depends on the order of iteration. The text of a SampleSetBuilder shows its length only.", "quantifier": "all node and edge objects, all orders of iteration, all texts of variables, values, relations and floats that can be told apart, all comparisons of variables", "why_tests_cant": "the order of iteration over frozensets of strings changes from run to run; a test can compare a few texts under the hash seed of its run", "anchors": ["Python/research/scripts/relnet/variables_graph.py:VariableNode.__repr__", "Python/research/scripts/relnet/variables_graph.py:VariableEdge.__repr__", "Python/research/scripts/relnet/folded_graph.py:FoldedNode.__repr__", "Python/research/scripts/relnet/folded_graph.py:FoldedEdge.__repr__", "Python/research/scripts/relnet/activation_graph.py:ActiveNode.__repr__", "Python/research/scripts/relnet/activation_graph.py:ActiveEdge.__repr__", "Python/research/scripts/relnet/sample_set.py:SampleSetBuilder.__repr__"]}
{"id": "C101", "title": "len of a sample set", "statement": "After any list of operations on a builder, len of the built sample set is the sum of the counts added since the last removals; it raises ValueError exactly if this sum is negative and OverflowError exactly if it is 2^63 or more, while the truth of the set only asks whether a sample is left. If len returns for two sets of one provider, it returns the sum for their union, or raises OverflowError when the sum is 2^63 or more. With positive counts, a filtered set has no larger len. For complete factors with positive counts, when make_joined returns: the total of the joined outcomes is at most the product of the totals of the factors and len returns if that is below 2^63; if the counts of one assignment have a product of 2^63 or more, len of the joined outcomes raises OverflowError, even when len returns for the graph before joining.", "quantifier": "all histories of builders, all sample sets, all factorized graphs with complete factors and positive counts, all orders of iteration", "why_tests_cant": "counts multiply when graphs are joined; a test uses small counts, for which len always returns", "anchors": ["Python/research/scripts/relnet/sample_set.py:SampleSet.__len__", "Python/research/scripts/relnet/sample_set.py:Samples.__bool__", "Python/research/scripts/relnet/sample_set.py:SampleSet.union", "Python/research/scripts/relnet/sample_set.py:SampleSet.filter_samples", "Python/research/scripts/relnet/relation_graph.py:RelationGraph.make_joined"]}
{"id": "C102", "title": "Manual Bayesian inference in floating point", "statement": "For any three tables with entries that are 0 or between 2^-200 and 1, whose products have at most 2^26 entries, the script computed with floats (the nearest floats of the entries, one rounding per operation, sum of Python up to 3.11 or later) raises ZeroDivisionError exactly if the exact computation does; otherwise the tables have the same keys and the relative errors are at most 5, n + 16, n + 16 and 3 n + 42 times 2^-52 for the joint table and the three normalised ones, and n more for the margins, where n bounds the number of entries. For tables of a network D -> G <- I this is the distance to the conditional distributions. For the tables of the script every number of the last table and its margins is right up to one part in 2^43. Without a lower bound on the entries it is false: three tables with entries 2^-400 make the script raise ZeroDivisionError though all probabilities are positive.", "quantifier": "all tables within these bounds, all observed values, all iteration orders, both variants of sum", "why_tests_cant": "a test prints or compares a few numbers of one network; rounding errors and underflow depend on the numbers of all tables", "anchors": ["Python/research/scripts/playaround/pgmpy_bayes_net_test.py:manual_bayes_net_test"]}
{"id": "C103", "title": "Counts beyond the range of floats", "statement": "With Python integers and the limit of floats kept (an int that rounds to 2^1024 or more has no float), marginal_distribution of a folded node raises OverflowError exactly if the number of outcomes has no float and a value other than 'unobserved' is declared, or the number of outcomes with a declared value 'unobserved' has no float. Otherwise it returns, no entry is infinite, all are between 0 and 1: the entry of a value is the rounded quotient of the rounded count and the rounded number of outcomes, the one of 'unobserved' the quotient rounded once. Hence for the folded graph of a space that does not declare 'unobserved', with 2^1024 outcomes or more every node raises, with at most as many as the largest float none does.", "quantifier": "all sound spaces with positive counts and single valued outcomes, all counts, all declared values, all iteration orders", "why_tests_cant": "the tests use a few outcomes; numbers of outcomes that no float holds come from joining, where counts multiply", "anchors": ["Python/research/scripts/relnet/folded_graph.py:FoldedNode.marginal_distribution"]}
{"id": "C104", "title": "Activation with counts beyond the range of floats", "statement": "With the upper limit of floats kept, activation_graph of a conditional graph raises OverflowError for every filter of relations and every order if the number of outcomes rounds to 2^1024 or more and some variable has a value. With at most 2^53 outcomes, and outcomes of at most 2^53 nodes and edges, the limit plays no role: it returns, no weight is infinite on the way, and the weights and edges are those of C64. With at most 2^960 outcomes, at most 2^52 - 6 different ones, and outcomes of at most 2^53 nodes and edges, it returns, no weight is infinite on the way, the edges are exact, and each weight is within a factor (1 + 2^-53)^(k + 6) of the exact one, with k the number of different outcomes.", "quantifier": "all conditional graphs of well formed relation graphs with positive counts, all evidence, all filters, all iteration orders", "why_tests_cant": "the tests use a few outcomes; whether a sum or a conversion leaves the range of floats depends on all counts", "anchors": ["Python/research/scripts/relnet/conditional_graph.py:ConditionalGraph.activation_graph"]}
