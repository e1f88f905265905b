{
 "claims": [
  {
   "property": "C01",
   "status": "proved",
   "theorems": [
    "Verif.C01_interning"
   ],
   "note": "Provider as a state machine with object identities; induction over call histories."
  },
  {
   "property": "C02",
   "status": "proved",
   "theorems": [
    "Verif.C02_get_node",
    "Verif.C02_get_edge",
    "Verif.C02_init",
    "Verif.C02_builder_calls",
    "Verif.C02_builder_history"
   ],
   "note": "Acceptance as iff, value and exception kind. C02_builder_calls ties the stateful provider to the stateless functions of the schema used by the models of the builders."
  },
  {
   "property": "C03",
   "status": "proved",
   "theorems": [
    "Verif.C03_opposite_endpoint",
    "Verif.C03_degenerate"
   ],
   "note": "All internal endpoint orders."
  },
  {
   "property": "C04",
   "status": "proved",
   "theorems": [
    "Verif.C04_is_edges_connected",
    "Verif.C04_empty",
    "Verif.C04_malformed"
   ],
   "note": "Decision is path-connectivity for all orders; StopIteration on the empty set."
  },
  {
   "property": "C05",
   "status": "proved",
   "theorems": [
    "Verif.C05_history",
    "Verif.C05_atomic",
    "Verif.C05_accept"
   ],
   "note": "Induction over histories of add_relation."
  },
  {
   "property": "C06",
   "status": "proved",
   "theorems": [
    "Verif.C06_history",
    "Verif.C06_history_inv",
    "Verif.C06_build_from_edges",
    "Verif.C06_add_relation_refuted",
    "Verif.C06_build_from_edges_refuted",
    "Verif.C06_one_value_calls",
    "Verif.C06_join_only"
   ],
   "note": "Exact characterisation for every mixed history and for build_from_edges; accepted histories that give two values of one variable are exhibited (the naive claim \"always single-valued\" is false)."
  },
  {
   "property": "C07",
   "status": "proved",
   "theorems": [
    "Verif.C07_join_sample"
   ],
   "note": "Acceptance iff, result is the union, for all orders."
  },
  {
   "property": "C08",
   "status": "proved",
   "theorems": [
    "Verif.C08_join_history"
   ],
   "note": "Invariant by induction over join histories."
  },
  {
   "property": "C09",
   "status": "proved",
   "theorems": [
    "Verif.C09_can_sample_be_joined",
    "Verif.C09_necessary",
    "Verif.C09_not_sufficient"
   ],
   "note": "Exact decision; necessary, not sufficient for join_sample."
  },
  {
   "property": "C10",
   "status": "proved",
   "theorems": [
    "Verif.C10_build_from_edges",
    "Verif.C10_build_then_view",
    "Verif.C10_view_then_build",
    "Verif.C10_single_node"
   ],
   "note": "Round trip in both directions, all orders."
  },
  {
   "property": "C100",
   "status": "proved",
   "theorems": [
    "Verif.C100_node",
    "Verif.C100_edge",
    "Verif.C100_edge_equal",
    "Verif.C100_folded_graph",
    "Verif.C100_edge_raises",
    "Verif.C100_edge_unordered",
    "Verif.C100_folded_edge_collision",
    "Verif.C100_set_builder"
   ],
   "note": "Non-vacuity: varTexts_demo, varText_demo."
  },
  {
   "property": "C101",
   "status": "proved",
   "theorems": [
    "Verif.C101_history",
    "Verif.C101_union",
    "Verif.C101_filter",
    "Verif.C101_joined_overflow",
    "Verif.C101_joined_returns",
    "Verif.C101_joined_case"
   ],
   "note": "Non-vacuity: C101_joined_case for the overflow, an example for the bound. Assumes CPython on a platform with 64 bits."
  },
  {
   "property": "C102",
   "status": "proved",
   "theorems": [
    "Verif.Manual.C102_script",
    "Verif.Manual.C102_conditional",
    "Verif.Manual.C102_case",
    "Verif.Manual.C102_underflow"
   ],
   "note": "Non-vacuity: C102_case, with the tables of the script. Infinities are left out of the model of floats; all numbers here are at most 2^28."
  },
  {
   "property": "C103",
   "status": "proved",
   "theorems": [
    "Verif.BigCounts.C103_distribution",
    "Verif.BigCounts.C103_folded",
    "Verif.BigCounts.C103_case"
   ],
   "note": "Non-vacuity: C103_case, a space with two samples counted 2^1023 times each; the demo space of C31 meets the hypotheses with five outcomes."
  },
  {
   "property": "C104",
   "status": "proved",
   "theorems": [
    "Verif.BigCounts.C104_overflow",
    "Verif.BigCounts.C104_small",
    "Verif.BigCounts.C104_activation",
    "Verif.BigCounts.C104_case",
    "Verif.BigCounts.C104_range"
   ],
   "note": "Non-vacuity: C104_case; the example after C64_activation meets the hypotheses of C104_small."
  },
  {
   "property": "C11",
   "status": "proved",
   "theorems": [
    "Verif.C11_builder_build"
   ],
   "note": ""
  },
  {
   "property": "C12",
   "status": "proved",
   "theorems": [
    "Verif.C12_equality"
   ],
   "note": ""
  },
  {
   "property": "C13",
   "status": "proved",
   "theorems": [
    "Verif.C13_is_subgraph",
    "Verif.C13_docstring_refuted"
   ],
   "note": ""
  },
  {
   "property": "C14",
   "status": "proved",
   "theorems": [
    "Verif.C14_value",
    "Verif.C14_algebra",
    "Verif.C14_triangle"
   ],
   "note": "Floats as rationals."
  },
  {
   "property": "C15",
   "status": "proved",
   "theorems": [
    "Verif.C15_lookups",
    "Verif.C15_order_dependent",
    "Verif.C15_set_lookups"
   ],
   "note": "Non-vacuity: set_lookups_demo."
  },
  {
   "property": "C16",
   "status": "proved",
   "theorems": [
    "Verif.C16_transform",
    "Verif.C16_preserves",
    "Verif.C16_algebra"
   ],
   "note": ""
  },
  {
   "property": "C17",
   "status": "proved",
   "theorems": [
    "Verif.C17_belt_nodes"
   ],
   "note": "every good graph, centre set, iteration order"
  },
  {
   "property": "C18",
   "status": "proved",
   "theorems": [
    "Verif.C18_external_nodes",
    "Verif.C18_same_layer_omitted"
   ],
   "note": "layers = shortest path distance; same-layer edges are not reported (witness)"
  },
  {
   "property": "C19",
   "status": "proved",
   "theorems": [
    "Verif.C19_neighboring_values"
   ],
   "note": ""
  },
  {
   "property": "C20",
   "status": "proved",
   "theorems": [
    "Verif.C20_history",
    "Verif.C20_count_of"
   ],
   "note": "induction over histories; effects of each call given by the relation Contributes"
  },
  {
   "property": "C21",
   "status": "proved",
   "theorems": [
    "Verif.C21_union",
    "Verif.C21_algebra",
    "Verif.C21_join_sample_set"
   ],
   "note": "values are immutable in the model; non-modification of arguments on the Python heap is C47"
  },
  {
   "property": "C22",
   "status": "proved",
   "theorems": [
    "Verif.C22_filter_samples"
   ],
   "note": ""
  },
  {
   "property": "C23",
   "status": "proved",
   "theorems": [
    "Verif.C23_probabilities",
    "Verif.C23_empty"
   ],
   "note": "over rationals instead of floats"
  },
  {
   "property": "C24",
   "status": "proved",
   "theorems": [
    "Verif.C24_sound",
    "Verif.C24_failures",
    "Verif.C24_complete",
    "Verif.C24_exact",
    "Verif.C24_laminar",
    "Verif.C24_own",
    "Verif.C24_loss_first",
    "Verif.C24_loss",
    "Verif.C24_collision"
   ],
   "note": "That no sample is ever lost is false; the condition for it is proved exact for merging in any order. For the order of one particular dictionary the condition is sufficient but not necessary."
  },
  {
   "property": "C25",
   "status": "proved",
   "theorems": [
    "Verif.C25_is_all_values_match"
   ],
   "note": ""
  },
  {
   "property": "C26",
   "status": "proved",
   "theorems": [
    "Verif.C26_can_join_samples",
    "Verif.C26_implied",
    "Verif.C26_not_sufficient"
   ],
   "note": ""
  },
  {
   "property": "C27",
   "status": "proved",
   "theorems": [
    "Verif.C27_make_joined_sample",
    "Verif.C27_exact",
    "Verif.C27_order_matters"
   ],
   "note": ""
  },
  {
   "property": "C28",
   "status": "proved",
   "theorems": [
    "Verif.C28_marginals",
    "Verif.C28_unobserved",
    "Verif.C28_order"
   ],
   "note": "floats modelled as rationals"
  },
  {
   "property": "C29",
   "status": "proved",
   "theorems": [
    "Verif.C29_collision"
   ],
   "note": "with positive counts the assertion always fires"
  },
  {
   "property": "C30",
   "status": "proved",
   "theorems": [
    "Verif.C30_included_variables",
    "Verif.C30_order",
    "Verif.C30_included_relations"
   ],
   "note": ""
  },
  {
   "property": "C31",
   "status": "proved",
   "theorems": [
    "Verif.C31_folded_graph",
    "Verif.C31_unobserved",
    "Verif.C31_marginal_distribution",
    "Verif.C31_unobserved_collision"
   ],
   "note": ""
  },
  {
   "property": "C32",
   "status": "proved",
   "theorems": [
    "Verif.C32_find_for_values",
    "Verif.C32_monotone"
   ],
   "note": ""
  },
  {
   "property": "C33",
   "status": "proved",
   "theorems": [
    "Verif.C33_is_factorized",
    "Verif.C33_factorized_iff",
    "Verif.C33_factors",
    "Verif.C33_order"
   ],
   "note": "edgeless outcomes are single nodes (holds for connected outcomes)"
  },
  {
   "property": "C34",
   "status": "proved",
   "theorems": [
    "Verif.C34_conditional_graph",
    "Verif.C34_idempotent",
    "Verif.C34_commute"
   ],
   "note": ""
  },
  {
   "property": "C35",
   "status": "proved",
   "theorems": [
    "Verif.C35_C36_activation_graph",
    "Verif.C35_activation_graph",
    "Verif.C35_empty_evidence",
    "Verif.C35_empty_selection"
   ],
   "note": "weights are rationals; the number of outcomes is that of the conditioned graph"
  },
  {
   "property": "C36",
   "status": "proved",
   "theorems": [
    "Verif.C35_C36_activation_graph",
    "Verif.C36_activation_edges",
    "Verif.C36_same_distance"
   ],
   "note": ""
  },
  {
   "property": "C37",
   "status": "proved",
   "theorems": [
    "Verif.C37_history",
    "Verif.C37_raises",
    "Verif.C37_build",
    "Verif.C37_next_id",
    "Verif.C37_init"
   ],
   "note": "RelationGraphBuilder as a history of add_outcome/add_outcomes calls."
  },
  {
   "property": "C38",
   "status": "proved",
   "theorems": [
    "Verif.C38_generate",
    "Verif.C38_generate_guard",
    "Verif.C38_generate_deterministic"
   ],
   "note": "generate_all_possible_outcomes yields exactly the connected single-valued graphs over the schema, once each, for every set iteration order."
  },
  {
   "property": "C39",
   "status": "proved",
   "theorems": [
    "Verif.C39_number_of_outcomes",
    "Verif.C39_recurrence",
    "Verif.C39_float",
    "Verif.C39_assertion",
    "Verif.C39_experiment"
   ],
   "note": "Exact recurrence for all inputs; float computation with int() exact within 2^53, given that the power of floats is exact there."
  },
  {
   "property": "C40",
   "status": "proved",
   "theorems": [
    "Verif.C40_symmetric",
    "Verif.C40_more_than_unobserved",
    "Verif.C40_uniform",
    "Verif.C40_experiment"
   ],
   "note": "Both assertions of the experiment, for all variables and relation types."
  },
  {
   "property": "C41",
   "status": "proved",
   "theorems": [
    "Verif.C41_untouched",
    "Verif.C41_empty",
    "Verif.C41_default",
    "Verif.C41_one_variable",
    "Verif.C41_classes",
    "Verif.C41_factorized"
   ],
   "note": "joined_on_variables: untouched outcomes, one variable, and repeated joining over the factor classes; every set iteration order."
  },
  {
   "property": "C42",
   "status": "proved",
   "theorems": [
    "Verif.C42_make_joined",
    "Verif.C42_product",
    "Verif.C42_tree",
    "Verif.C42_order",
    "Verif.C42_good"
   ],
   "note": "make_joined on complete factors: only AssertionError, and when it returns the outcomes and counts are exactly the consistent combinations with the product of counts; trees of factors always return; any two returning orders agree."
  },
  {
   "property": "C43",
   "status": "proved",
   "theorems": [
    "Verif.C43_returns_iff",
    "Verif.C43_order",
    "Verif.C43_clique",
    "Verif.C43_disconnected",
    "Verif.C43_gap",
    "Verif.C43_two_factors"
   ],
   "note": "Exact condition for make_joined to return (elimination on variable sets); order dependence, cliques and disconnected factors always raise; with incomplete factors the result depends on order."
  },
  {
   "property": "C44",
   "status": "proved",
   "theorems": [
    "Verif.C44_is_joined",
    "Verif.C44_make_joined"
   ],
   "note": "is_joined is exact for every order; the result of make_joined with complete factors is joined."
  },
  {
   "property": "C45",
   "status": "proved",
   "theorems": [
    "Verif.C45_inference",
    "Verif.C45_inference_all",
    "Verif.C45_returns",
    "Verif.C45_tree"
   ],
   "note": "Conditioning then joining equals joining then selecting, for one or any number of observed values; conditioning preserves returning."
  },
  {
   "property": "C46",
   "status": "proved",
   "theorems": [
    "Verif.C46_string_id_injective",
    "Verif.C46_string_id_collision",
    "Verif.C46_edge_repr",
    "Verif.C46_edge_repr_injective",
    "Verif.C46_text_view",
    "Verif.C46_text_view_injective",
    "Verif.C46_name",
    "Verif.C46_sample_set",
    "Verif.C46_names_matter",
    "Verif.C46_builder_name",
    "Verif.C46_stale_name",
    "Verif.C46_print_determines",
    "Verif.C46_repr_determines",
    "Verif.C46_set_name"
   ],
   "note": "str of variables, values and relations is arbitrary (hypothesis Clean where texts must be parsed back). set_name_demo."
  },
  {
   "property": "C47",
   "status": "proved",
   "theorems": [
    "Verif.Heap.C47_immutable",
    "Verif.Heap.C47_length",
    "Verif.Heap.C47_set_builder",
    "Verif.Heap.C47_user_dict",
    "Verif.Heap.C47_sample_builder",
    "Verif.Heap.C47_shares",
    "Verif.Heap.C47_private_builder",
    "Verif.Heap.C47_set_copies",
    "Verif.Heap.C47_builder_copies",
    "Verif.Heap.C47_graph_builder",
    "Verif.Heap.C47_graph_to_builder",
    "Verif.Heap.C47_user_sets",
    "Verif.Heap.C47_provider_alias",
    "Verif.Heap.C47_wellformed",
    "Verif.C47_parallel_edges",
    "Verif.Heap.C47_build_graph",
    "Verif.Heap.C47_relation_graph",
    "Verif.Heap.C47_derived_sets",
    "Verif.Heap.C47_derived_samples"
   ],
   "note": "Heap of cells and objects; every finite history of the listed operations from the empty heap, including operations that raise half way."
  },
  {
   "property": "C48",
   "status": "proved",
   "theorems": [
    "Verif.C48_variables_subgraph",
    "Verif.C48_edges_endpoint_variables",
    "Verif.C48_single_node_variable"
   ],
   "note": ""
  },
  {
   "property": "C49",
   "status": "proved",
   "theorems": [
    "Verif.C49_components",
    "Verif.C49_sample_graph",
    "Verif.C49_sample_set",
    "Verif.C49_variable_node",
    "Verif.C49_variable_edge",
    "Verif.C49_classes",
    "Verif.C49_methods_asymmetric",
    "Verif.C49_variables_graph",
    "Verif.C49_folded_active",
    "Verif.C49_folded_coarse",
    "Verif.C49_table",
    "Verif.C49_table_unique",
    "Verif.C49_methods_asymmetric_all"
   ],
   "note": "hash functions of the interpreter and of user objects are arbitrary parameters"
  },
  {
   "property": "C50",
   "status": "proved",
   "theorems": [
    "Verif.C50_no_pairs",
    "Verif.C50_all_graphs",
    "Verif.C50_too_many",
    "Verif.C50_ids",
    "Verif.C50_network"
   ],
   "note": "the power of floats is a parameter with stated assumptions (PowSpec); pyvis is modelled as documented (see C66)"
  },
  {
   "property": "C51",
   "status": "proved",
   "theorems": [
    "Verif.Pac.C51_roundtrip",
    "Verif.Pac.C51_packed_size",
    "Verif.Pac.C51_pack_injective",
    "Verif.Pac.C51_asList",
    "Verif.Pac.C51_hash",
    "Verif.Pac.C51_hash_contract",
    "Verif.Pac.C51_put",
    "Verif.Pac.C51_put_count"
   ],
   "note": "boolean grids"
  },
  {
   "property": "C52",
   "status": "proved",
   "theorems": [
    "Verif.Pac.C52_directions",
    "Verif.Pac.C52_vector_roundtrip",
    "Verif.Pac.C52_possible",
    "Verif.Pac.C52_between",
    "Verif.Pac.C52_ghost_legal",
    "Verif.Pac.C52_pacman_legal",
    "Verif.Pac.C52_placed",
    "Verif.Pac.C52_errors",
    "Verif.Pac.C52_legal_iff",
    "Verif.Pac.C52_region",
    "Verif.Pac.C52_never_stuck",
    "Verif.Pac.C52_last_scared_move",
    "Verif.Pac.C52_border_needed"
   ],
   "note": "hypothesis: the border of the maze is closed (C52_border_needed); floats are rationals, and all coordinates that occur are multiples of 1/2; C58_demo shows that the demo's layout meets the hypotheses"
  },
  {
   "property": "C53",
   "status": "proved",
   "theorems": [
    "Verif.Pac.C53_pacman_step",
    "Verif.Pac.C53_ghost_step",
    "Verif.Pac.C53_account",
    "Verif.Pac.C53_terminal",
    "Verif.Pac.C53_no_food",
    "Verif.Pac.C53_bound"
   ],
   "note": ""
  },
  {
   "property": "C54",
   "status": "proved",
   "theorems": [
    "Verif.Pac.C54_no_missed",
    "Verif.Pac.C54_lose_sound",
    "Verif.Pac.C54_initial",
    "Verif.Pac.C54_respawn_overlap"
   ],
   "note": "C54_respawn_overlap is the witness that the exception in C54_no_missed is needed"
  },
  {
   "property": "C55",
   "status": "proved",
   "theorems": [
    "Verif.Pac.C55_observation",
    "Verif.Pac.C55_copy_forgets",
    "Verif.Pac.C55_run",
    "Verif.Pac.C55_legal_agents",
    "Verif.Pac.C55_agents",
    "Verif.Pac.C55_progress",
    "Verif.Pac.C55_text",
    "Verif.Pac.C55_demo"
   ],
   "note": "Agents are arbitrary functions; the timed variant with catchExceptions is modelled without the signals. Hypotheses met by the demo layout (C55_demo) and by an agent that answers with the first legal action."
  },
  {
   "property": "C56",
   "status": "proved",
   "theorems": [
    "Verif.Pac.C56_queue",
    "Verif.Pac.C56_stack",
    "Verif.Pac.C56_stack_nested",
    "Verif.Pac.C56_pop",
    "Verif.Pac.C56_update",
    "Verif.Pac.C56_run",
    "Verif.Pac.C56_deterministic",
    "Verif.Pac.C56_drain",
    "Verif.Pac.C56_heapsort",
    "Verif.Pac.C56_function_update",
    "Verif.Pac.C56_duplicates",
    "Verif.Pac.C56_arrayInvert",
    "Verif.Pac.C56_transpose",
    "Verif.Pac.C56_matrixAsList",
    "Verif.Pac.C56_sign",
    "Verif.Pac.C56_isEmpty",
    "Verif.Pac.C56_function_push",
    "Verif.Pac.C56_function_sort"
   ],
   "note": "heapq is a parameter with its documented contract (structure Heapq), inhabited by sortedHeapq."
  },
  {
   "property": "C57",
   "status": "proved",
   "theorems": [
    "Verif.Pac.C57_read",
    "Verif.Pac.C57_incrementAll",
    "Verif.Pac.C57_normalize",
    "Verif.Pac.C57_divideAll",
    "Verif.Pac.C57_add",
    "Verif.Pac.C57_sub",
    "Verif.Pac.C57_mul",
    "Verif.Pac.C57_bilinear",
    "Verif.Pac.C57_radd",
    "Verif.Pac.C57_python3",
    "Verif.Pac.C57_sample",
    "Verif.Pac.C57_sample_positive",
    "Verif.Pac.C57_sample_zero",
    "Verif.Pac.C57_sample_empty",
    "Verif.Pac.C57_sample_counter",
    "Verif.Pac.C57_nSample",
    "Verif.Pac.C57_getProbability",
    "Verif.Pac.C57_choosePairs",
    "Verif.Pac.C57_random_dist",
    "Verif.Pac.C57_random_ghost",
    "Verif.Pac.C57_directional",
    "Verif.Pac.C57_directional_legal",
    "Verif.Pac.C57_keyboard",
    "Verif.Pac.C57_demo",
    "Verif.Pac.C57_direction_order"
   ],
   "note": "Floats are rationals. A random number is an argument; the keys and the previous move of the keyboard agent are arbitrary at every turn."
  },
  {
   "property": "C58",
   "status": "proved",
   "theorems": [
    "Verif.Pac.C58_parse",
    "Verif.Pac.C58_deepCopy",
    "Verif.Pac.C58_initial",
    "Verif.Pac.C58_demo"
   ],
   "note": "reading files (getLayout, tryToLoad) is C74"
  },
  {
   "property": "C59",
   "status": "proved",
   "theorems": [
    "Verif.Bayes.C59_value_combination",
    "Verif.Bayes.C59_value_map",
    "Verif.Bayes.C59_make_relation_graph",
    "Verif.Bayes.C59_joint",
    "Verif.Bayes.C59_polytree",
    "Verif.Bayes.C59_disconnected",
    "Verif.Bayes.C59_inference",
    "Verif.Bayes.C59_comparing_joint",
    "Verif.Bayes.C59_comparing_inference",
    "Verif.Bayes.C59_ancestral_independence",
    "Verif.Bayes.C59_student",
    "Verif.Bayes.C59_d_separation",
    "Verif.Bayes.C59_d_separation_decides",
    "Verif.Bayes.C59_student_inference"
   ],
   "note": "floats as rationals, with rounding see C77; factors returned by pgmpy are arbitrary"
  },
  {
   "property": "C60",
   "status": "proved",
   "theorems": [
    "Verif.Markov.C60_make_relation_graph",
    "Verif.Markov.C60_joint",
    "Verif.Markov.C60_disconnected",
    "Verif.Markov.C60_comparing_joint",
    "Verif.Markov.C60_comparing_inference",
    "Verif.Markov.C60_separation",
    "Verif.Markov.C60_graph_separation",
    "Verif.Markov.C60_markov_separation",
    "Verif.Markov.C60_experiment",
    "Verif.Markov.C60_markov_separation_decides",
    "Verif.Markov.C60_graph_separation_decides",
    "Verif.Markov.C60_comparing_joint_decides",
    "Verif.Markov.C60_comparing_inference_decides",
    "Verif.Markov.C60_experiment_joint"
   ],
   "note": "Rationals instead of floats; factors of pgmpy are functions of assignments."
  },
  {
   "property": "C61",
   "status": "proved",
   "theorems": [
    "Verif.C61_tree",
    "Verif.C61_tree_product",
    "Verif.C61_order",
    "Verif.Coins.C61_coin_counts",
    "Verif.Coins.C61_coin_accepts",
    "Verif.Coins.C61_coin_outcome_inj",
    "Verif.Coins.C61_coin_describe",
    "Verif.Coins.C61_coin_conditional",
    "Verif.Coins.C61_coin_joint"
   ],
   "note": "The class of the exception for malformed texts is not distinguished."
  },
  {
   "property": "C62",
   "status": "proved",
   "theorems": [
    "Verif.Pac.C62_eq",
    "Verif.Pac.C62_equivalence",
    "Verif.Pac.C62_hash",
    "Verif.Pac.C62_hash_collision",
    "Verif.Pac.C62_step",
    "Verif.Pac.C62_play",
    "Verif.Pac.C62_runs",
    "Verif.Pac.C62_win",
    "Verif.Pac.C62_lose"
   ],
   "note": "Comparison with objects of other types is left out."
  },
  {
   "property": "C63",
   "status": "proved",
   "theorems": [
    "Verif.Pac.C63_refines",
    "Verif.Pac.C63_constant",
    "Verif.Pac.C63_marks_unused",
    "Verif.Pac.C63_marks_shared",
    "Verif.Pac.C63_marks_tied"
   ],
   "note": "Objects are those of the states; the layout is never written and kept as a value. The set GameState.explored, into which states are put for counting, is treated in C80."
  },
  {
   "property": "C64",
   "status": "proved",
   "theorems": [
    "Verif.C64_rounding",
    "Verif.C64_probabilities",
    "Verif.C64_empty",
    "Verif.C64_marginals",
    "Verif.C64_unobserved",
    "Verif.C64_marginal_distribution",
    "Verif.C64_similarity",
    "Verif.C64_activation_graph",
    "Verif.C64_activation",
    "Verif.C64_error_bound",
    "Verif.C64_tolerance_needed",
    "Verif.C64_assertion_fails",
    "Verif.C64_skewed",
    "Verif.C64_percent"
   ],
   "note": "Floats are double precision without overflow, nan and signed zero. Sizes: marginal_distribution and activation_graph up to 2^53 outcomes. C64_percent is a statement about the 101 probabilities with two decimals."
  },
  {
   "property": "C65",
   "status": "proved",
   "theorems": [
    "Verif.C65_external_nodes",
    "Verif.C65_trace",
    "Verif.C65_trace_complete",
    "Verif.C65_trace_line",
    "Verif.C65_join_sample",
    "Verif.C65_join_empty",
    "Verif.C65_group_intersecting",
    "Verif.C65_group_fan"
   ],
   "note": "Counted are nested calls of the recursive function itself. The recursion of cross_join and of the experiments is one level per group or variable and is not stated; for join_factors and join_sample_set see C79."
  },
  {
   "property": "C66",
   "status": "proved",
   "theorems": [
    "Verif.C66_sample_graph",
    "Verif.C66_sample_loop",
    "Verif.C66_outcomes_raises",
    "Verif.C66_outcomes",
    "Verif.C66_outcomes_collision",
    "Verif.C66_folded",
    "Verif.C66_folded_merged",
    "Verif.C66_activation",
    "Verif.C66_texts"
   ],
   "note": "pyvis is represented by the documented behaviour of add_node and add_edge; the assertion of pyvis that ids are str or int, the file name and show are not modelled. Weights are rational; with floats the shade is that of the rounded product. C66_activation assumes that the evidence uses declared variables and that declared value sets are not empty."
  },
  {
   "property": "C67",
   "status": "proved",
   "theorems": [
    "Verif.Manual.C67_product",
    "Verif.Manual.C67_product_apart",
    "Verif.Manual.C67_product_clash",
    "Verif.Manual.C67_norm",
    "Verif.Manual.C67_select",
    "Verif.Manual.C67_select_product",
    "Verif.Manual.C67_margin",
    "Verif.Manual.C67_margin_order",
    "Verif.Manual.C67_script",
    "Verif.Manual.C67_priors"
   ],
   "note": "Floats as rationals; printing is left out."
  },
  {
   "property": "C68",
   "status": "proved",
   "theorems": [
    "Verif.C68_name",
    "Verif.C68_builder_name",
    "Verif.C68_stale_name",
    "Verif.C68_back",
    "Verif.C68_conditional_name",
    "Verif.C68_describe",
    "Verif.C68_describe_conditional",
    "Verif.C68_view_injective",
    "Verif.C68_views",
    "Verif.C68_views_determine",
    "Verif.C68_builder_text",
    "Verif.C68_sample_builder_text",
    "Verif.C68_set_name",
    "Verif.C68_name_text",
    "Verif.C68_new_builder_text",
    "Verif.C68_builder_ids"
   ],
   "note": "describe() dictionaries as structures; texts of labels are arbitrary functions."
  },
  {
   "property": "C69",
   "status": "proved",
   "theorems": [
    "Verif.C69_conditional",
    "Verif.C69_joined",
    "Verif.C69_bayes",
    "Verif.C69_total",
    "Verif.C69_pieces",
    "Verif.C69_mixture",
    "Verif.C69_scale",
    "Verif.C69_scale_activation",
    "Verif.C69_is_joined",
    "Verif.C69_loose"
   ],
   "note": "Exact rationals; for floats see C64."
  },
  {
   "property": "C70",
   "status": "proved",
   "theorems": [
    "Verif.Pac.C70_sample",
    "Verif.Pac.C70_sample_positive",
    "Verif.Pac.C70_sample_raises",
    "Verif.Pac.C70_nSample",
    "Verif.Pac.C70_choosePairs",
    "Verif.Pac.C70_sevenths",
    "Verif.Pac.C70_three",
    "Verif.Pac.C70_none",
    "Verif.Pac.C70_nSample_sevenths",
    "Verif.Pac.C70_random_ghost",
    "Verif.Pac.C70_directional",
    "Verif.Pac.C70_demo",
    "Verif.Pac.C70_directional_raises",
    "Verif.Pac.C70_normalize"
   ],
   "note": "The theorems about ghosts are for all states and random numbers; the totals of the finitely many distributions are computed in the kernel."
  },
  {
   "property": "C71",
   "status": "proved",
   "theorems": [
    "Verif.Pac.C71_screen",
    "Verif.Pac.C71_current",
    "Verif.Pac.C71_round",
    "Verif.Pac.C71_text",
    "Verif.Pac.C71_demo",
    "Verif.Pac.C71_many_ghosts",
    "Verif.Pac.C71_stale_colour",
    "Verif.Pac.C71_stale_place",
    "Verif.Pac.C71_swap",
    "Verif.Pac.C71_swap_first"
   ],
   "note": "C71_stale_colour and C71_stale_place are cases showing that the lag in C71_screen is real."
  },
  {
   "property": "C72",
   "status": "proved",
   "theorems": [
    "Verif.Pac.C72_walls",
    "Verif.Pac.C72_closed",
    "Verif.Pac.C72_boundary",
    "Verif.Pac.C72_inside",
    "Verif.Pac.C72_clear",
    "Verif.Pac.C72_agents",
    "Verif.Pac.C72_disc",
    "Verif.Pac.C72_screen",
    "Verif.Pac.C72_demo"
   ],
   "note": ""
  },
  {
   "property": "C73",
   "status": "proved",
   "theorems": [
    "Verif.Pac.C73_text",
    "Verif.Pac.C73_initial",
    "Verif.Pac.C73_read_back",
    "Verif.Pac.C73_pacman",
    "Verif.Pac.C73_same",
    "Verif.Pac.C73_tells",
    "Verif.Pac.C73_grid",
    "Verif.Pac.C73_layout",
    "Verif.Pac.C73_games",
    "Verif.Pac.C73_demo",
    "Verif.Pac.C73_hidden_ghost",
    "Verif.Pac.C73_hidden_pacman",
    "Verif.Pac.C73_blind"
   ],
   "note": ""
  },
  {
   "property": "C74",
   "status": "proved",
   "theorems": [
    "Verif.Pac.C74_missing",
    "Verif.Pac.C74_first",
    "Verif.Pac.C74_cwd",
    "Verif.Pac.C74_refused",
    "Verif.Pac.C74_cut",
    "Verif.Pac.C74_lines",
    "Verif.Pac.C74_strip",
    "Verif.Pac.C74_roundtrip",
    "Verif.Pac.C74_demo",
    "Verif.Pac.C74_left",
    "Verif.Pac.C74_outer"
   ],
   "note": ""
  },
  {
   "property": "C75",
   "status": "proved",
   "theorems": [
    "Verif.Pac.C75_parse",
    "Verif.Pac.C75_load",
    "Verif.Pac.C75_command",
    "Verif.Pac.C75_games",
    "Verif.Pac.C75_zero",
    "Verif.Pac.C75_report",
    "Verif.Pac.C75_results",
    "Verif.Pac.C75_names"
   ],
   "note": ""
  },
  {
   "property": "C76",
   "status": "proved",
   "theorems": [
    "Verif.Markov.C76_markov_inference",
    "Verif.Markov.C76_markov_joint",
    "Verif.Markov.C76_markov_joint_ok",
    "Verif.Markov.C76_graph_separation",
    "Verif.Markov.C76_markov_separation",
    "Verif.Markov.C76_markov_joint_fails",
    "Verif.Markov.C76_markov_experiment",
    "Verif.Markov.C76_markov_separation_decides"
   ],
   "note": ""
  },
  {
   "property": "C77",
   "status": "proved",
   "theorems": [
    "Verif.Bayes.C77_make_relation_graph",
    "Verif.Bayes.C77_decimals",
    "Verif.Bayes.C77_student_graph",
    "Verif.Bayes.C77_graph_fails",
    "Verif.Bayes.C77_tolerance",
    "Verif.Bayes.C77_marginal",
    "Verif.Bayes.C77_comparing_joint",
    "Verif.Bayes.C77_inference",
    "Verif.Bayes.C77_comparing_inference",
    "Verif.Bayes.C77_d_separation",
    "Verif.Bayes.C77_student_joint",
    "Verif.Bayes.C77_student_inference"
   ],
   "note": "factors returned by pgmpy are arbitrary"
  },
  {
   "property": "C78",
   "status": "proved",
   "theorems": [
    "Verif.PyHeapq.C78_heappush",
    "Verif.PyHeapq.C78_heappop",
    "Verif.PyHeapq.C78_heapify",
    "Verif.Pac.C78_priority_queue"
   ],
   "note": "heapq is the Python source of CPython as known, it is not in the repository; heapify of the C version takes another order for more than 2500 elements"
  },
  {
   "property": "C79",
   "status": "proved",
   "theorems": [
    "Verif.Samples.C79_join_factors",
    "Verif.C79_limit",
    "Verif.C79_large",
    "Verif.C79_tree",
    "Verif.C79_enough",
    "Verif.C79_joined",
    "Verif.C79_chain"
   ],
   "note": "Counted are nested calls of join_factors and join_sample_set only; frames of comprehensions (before Python 3.12) and of callers use up some of the real limit, so real limits are tighter."
  },
  {
   "property": "C80",
   "status": "proved",
   "theorems": [
    "Verif.Pac.C80_natural",
    "Verif.Pac.C80_negative",
    "Verif.Pac.C80_below",
    "Verif.Pac.C80_pacman_as_ghost",
    "Verif.Pac.C80_ghosts",
    "Verif.Pac.C80_explored",
    "Verif.Pac.C80_food_shared",
    "Verif.Pac.C80_pacman",
    "Verif.Pac.C80_cells",
    "Verif.Pac.C80_game"
   ],
   "note": "The Exception of a wrong index and IndexError are different errors of the model. float(score) is modelled as the score (exact below 2^53)."
  },
  {
   "property": "C81",
   "status": "proved",
   "theorems": [
    "Verif.Pac.C81_limit",
    "Verif.Pac.C81_handler",
    "Verif.Pac.C81_killed",
    "Verif.Pac.C81_safe",
    "Verif.Pac.C81_zero",
    "Verif.Pac.C81_nested",
    "Verif.Pac.C81_swallowed",
    "Verif.Pac.C81_poll",
    "Verif.Pac.C81_negative",
    "Verif.Pac.C81_overflow"
   ],
   "note": "Signals are delivered as soon as their time has come (CPython delivers between bytecodes). Limits are C ints of 32 bits."
  },
  {
   "property": "C82",
   "status": "proved",
   "theorems": [
    "Verif.Pac.TRun.C82_turn",
    "Verif.Pac.TRun.C82_game",
    "Verif.Pac.TRun.C82_ends",
    "Verif.Pac.TRun.C82_refines",
    "Verif.Pac.TRun.C82_uncaught",
    "Verif.Pac.TRun.C82_final",
    "Verif.Pac.TRun.C82_run",
    "Verif.Pac.TRun.C82_overflow",
    "Verif.Pac.TRun.C82_nonpositive"
   ],
   "note": "Calls of agents take a time and return or raise; they do not use limits themselves. Everything else takes no time. Times are exact microseconds instead of floats. Displays and printed texts are left out."
  },
  {
   "property": "C83",
   "status": "proved",
   "theorems": [
    "Verif.C83_pairs",
    "Verif.C83_order"
   ],
   "note": "Non-vacuity: triangle_joined and pendant_not_joined. Same model and simplifications as C42 and C43."
  },
  {
   "property": "C84",
   "status": "proved",
   "theorems": [
    "Verif.C84_order",
    "Verif.C84_all",
    "Verif.C84_some"
   ],
   "note": "Non-vacuity: parts_triangle and parts_pendant. Same model and simplifications as C42 and C43."
  },
  {
   "property": "C85",
   "status": "proved",
   "theorems": [
    "Verif.C85_tree",
    "Verif.C85_any_order",
    "Verif.C85_pairs"
   ],
   "note": "Non-vacuity: field_triangle. Same model and simplifications as C42 and C43."
  },
  {
   "property": "C86",
   "status": "proved",
   "theorems": [
    "Verif.C86_some",
    "Verif.C86_pairs",
    "Verif.C86_observed"
   ],
   "note": "Non-vacuity: observed_triangle. Same model and simplifications as C42, C43 and C45."
  },
  {
   "property": "C87",
   "status": "proved",
   "theorems": [
    "Verif.Pac.C87_history",
    "Verif.Pac.C87_start",
    "Verif.Pac.C87_colour",
    "Verif.Pac.C87_belief"
   ],
   "note": "Non-vacuity: plain_case. `x ** .3` is a parameter; tkinter's stacking order is assumed as stated in the model. C87_belief was added after a wrong list of ghost colours went unnoticed."
  },
  {
   "property": "C88",
   "status": "proved",
   "theorems": [
    "Verif.C88_returns",
    "Verif.C88_parts",
    "Verif.C88_all",
    "Verif.C88_complete",
    "Verif.C88_make_joined",
    "Verif.C88_product",
    "Verif.C88_pairs",
    "Verif.C88_order_counterexample"
   ],
   "note": "Non-vacuity: cycle_joined (a triangle with a potential on each variable, where make_joined fails for every order). Assumes that iterating a variable that has outcomes of its own does not yield the variable and others, as for strings. Same model and simplifications as C41."
  },
  {
   "property": "C89",
   "status": "proved",
   "theorems": [
    "Verif.C89_returns",
    "Verif.C89_inference",
    "Verif.C89_posterior",
    "Verif.C89_pairs"
   ],
   "note": "Non-vacuity: cycle_posterior (the triangle with a potential on each variable, one variable observed). Rationals instead of floats. Same model and simplifications as C34, C28 and C88."
  },
  {
   "property": "C90",
   "status": "proved",
   "theorems": [
    "Verif.C90_one_factor",
    "Verif.C90_lost",
    "Verif.C90_no_influence",
    "Verif.C90_never_joined",
    "Verif.C90_exact"
   ],
   "note": "Non-vacuity: fourChain_edge (the chain 0-1-2-3 with any observed values on 0 and 1), fourChain_exact (its first variable), fourChain_pieces (numbers when observed one by one). Rationals instead of floats. Same model and simplifications as C34, C69 and C88."
  },
  {
   "property": "C91",
   "status": "proved",
   "theorems": [
    "Verif.C91_float",
    "Verif.C91_pairs",
    "Verif.C91_size"
   ],
   "note": "Non-vacuity: cycle_float (the triangle, where make_joined fails for every order; its size is checked with C91_size). Same model and simplifications as C89 and C64 (binary64 division and sums modelled with rationals, no overflow in the range stated)."
  },
  {
   "property": "C92",
   "status": "proved",
   "theorems": [
    "Verif.C92_limit",
    "Verif.C92_enough",
    "Verif.C92_enough_all",
    "Verif.C92_raises",
    "Verif.C92_pairs",
    "Verif.C92_chain",
    "Verif.C92_star"
   ],
   "note": "Non-vacuity: C92_chain and C92_star build networks of every size that meet the hypotheses. Frames of functions that do not recurse (a fixed number) are not counted."
  },
  {
   "property": "C93",
   "status": "proved",
   "theorems": [
    "Verif.C93_reordered",
    "Verif.C93_queries",
    "Verif.C93_find",
    "Verif.C93_marginals",
    "Verif.C93_folded",
    "Verif.C93_factorized",
    "Verif.C93_condition",
    "Verif.C93_activation",
    "Verif.C93_joined_on",
    "Verif.C93_make_joined",
    "Verif.C93_inference",
    "Verif.C93_make_joined_refuted"
   ],
   "note": "Non-vacuity: demo_same gives two different spaces with the same contents, cycle_same a cyclic network meeting the hypotheses of C93_inference. Exact arithmetic; the order of float sums is the subject of C77 and C91."
  },
  {
   "property": "C94",
   "status": "proved",
   "theorems": [
    "Verif.Pac.C94_wait",
    "Verif.Pac.C94_once",
    "Verif.Pac.C94_fair",
    "Verif.Pac.C94_starved"
   ],
   "note": "Non-vacuity: clicks_demo. Contract of Tk: one click calls the most specific handler only."
  },
  {
   "property": "C95",
   "status": "proved",
   "theorems": [
    "Verif.Pac.C95_prints",
    "Verif.Pac.C95_restored",
    "Verif.Pac.C95_muted_refuted"
   ],
   "note": "Non-vacuity: mute_demo."
  },
  {
   "property": "C96",
   "status": "proved",
   "theorems": [
    "Verif.Pac.C96_frames",
    "Verif.Pac.C96_names",
    "Verif.Pac.C96_order",
    "Verif.Pac.C96_order_refuted"
   ],
   "note": "Non-vacuity: frame_demo. Opening and writing files succeed."
  },
  {
   "property": "C97",
   "status": "proved",
   "theorems": [
    "Verif.Pac.C97_plain",
    "Verif.Pac.C97_dotted",
    "Verif.Pac.C97_package"
   ],
   "note": "Non-vacuity: lookup_demo. Contract of Python: __import__ returns the top package, and raises an error if the module cannot be imported."
  },
  {
   "property": "C98",
   "status": "proved",
   "theorems": [
    "Verif.Pac.C98_neighbors",
    "Verif.Pac.C98_moves",
    "Verif.Pac.C98_wrap",
    "Verif.Pac.C98_outside",
    "Verif.Pac.C98_left",
    "Verif.Pac.C98_integer"
   ],
   "note": "Non-vacuity: neighbors_demo."
  },
  {
   "property": "C99",
   "status": "proved",
   "theorems": [
    "Verif.Pac.C99_screen",
    "Verif.Pac.C99_away",
    "Verif.Pac.C99_seen",
    "Verif.Pac.C99_swap"
   ],
   "note": "Non-vacuity: shaft_fresh."
  }
 ]
}