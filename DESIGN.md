# Formal model of `relnet` (AlexCAB/probabilistic-relational-network)

The modelled code is the Python package `/repo/Python/research/scripts/relnet`
(`graph_components.py`, `sample_graph.py`, `sample_set.py`, `sample_space.py`,
`relation_graph.py`, `conditional_graph.py`, `folded_graph.py`, `activation_graph.py`,
`variables_graph.py`) and the counting formula of
`/repo/Python/research/scripts/experiments/outcomes_space_power.py`, the enumeration of
`/repo/Python/research/scripts/playaround/number_of_subgraphs.py`, and the game logic of
`/repo/Python/research/scripts/demo` (`Model/Pac*.lean`), and the comparison with Bayesian networks
`/repo/Python/research/scripts/experiments/comparing_with_bayes_network.py` (`Model/Bayes.lean`) and with Markov networks
`/repo/Python/research/scripts/experiments/comparing_with_markov_network.py` (`Model/Markov.lean`), and the three scripts
of `/repo/Python/research/scripts/examples/` (`Model/Coins.lean`).

## 1. Layout of the Lean project

* `lean/Verif/Base/*`   – exceptions, iteration orders, insertion ordered dictionaries.
* `lean/Verif/Model/*`  – the model, function by function; each definition cites file and lines.
* `lean/Verif/Spec/*`   – small, model independent specifications (connectivity, consistency, distances, counts).
* `lean/Verif/Lemmas/*` – helper lemmas.
* `lean/Verif/Props/*`  – the property theorems `Cnn_…`, each with a non-vacuity `example` beside it.

## 2. How Python is modelled

| Python | Lean | Remark |
|---|---|---|
| variables, values, relation labels (`Any`, hashable) | types `V X R` with `DecidableEq` | `==` is assumed to be an equivalence consistent with `hash` (Python's own contract). |
| `ValueNode`, `RelationEdge`, `DirectedRelation` | `Node`, `Edge`, `Rel` | equality is structural as in `__eq__`; object identity only in the provider model (C01). |
| `set`, `frozenset` | `Finset` | iteration goes through an `Order` (any function listing every set without repetition). Theorems quantify over all orders. Each program point that iterates takes its own order where the result could depend on it. Within one program point two iterations over *equal* sets use the same list (simplification). |
| `dict` | insertion ordered association list (`Dict`) | `d[k]=v` updates in place or appends, `pop` removes, iteration is in insertion order. |
| `SampleSet` equality, `frozenset[SampleSet]` | equality of dictionaries up to order (`Dict.Equiv`) | |
| exceptions | `Except Err`; mutators that are not atomic return the state they leave behind together with the optional error | messages are not modelled, only kind. |
| `int` | `Int`/`Nat` | exact. |
| `float` | `Rat` | in most of the model rounding is abstracted: `isclose(p, 1.0)` becomes `p = 1`. The rationals computed are those the floats approximate. C64 models rounding (`Base/Float.lean`, `Model/PyFloat.lean`, `Model/FloatProb.lean`) and bounds the difference for all probabilities computed by `relnet`; overflow, `nan` and the sign of zero are left out there; C103 and C104 keep the upper limit for `marginal_distribution` and `activation_graph`. |
| recursion limit, memory, hashing cost | not modelled, except the depth of recursion (C65, C79, C92) | elsewhere `RecursionError` for > ~1000 deep graphs is outside the model. |
| names of graphs, `repr`, `string_id`, `text_view`, `print_samples` | strings as `List Char` (`Model/Text.lean`, C46) | `str(x)` of a user value is a parameter. Elsewhere names are left out: they do not take part in equality. |
| object identity, references | addresses in a heap (`Model/Heap.lean`, C47) | elsewhere immutable objects are values, justified by `C47_immutable`. |
| HTML visualisation | calls of `add_node` and `add_edge` (C66) | the rest of `pyvis` is not modelled. |

Recursive Python functions become structural recursion on an explicit fuel which is proved
sufficient (the out-of-fuel branch is an error `Err.fuel` shown unreachable), or folds.

## 3. Trusted base

* Lean 4.33.0 kernel; axioms `propext`, `Classical.choice`, `Quot.sound` only (checked by `vcheck`).
* Mathlib modules imported one at a time (`Finset`, `List`, `Rat`, big operators, …).
* The reading of the Python source recorded in the comments of `Verif/Model` (the code is not run).

## 4. Code not modelled

`pyvis` itself (of `visualize*` the calls of `add_node` and `add_edge` are modelled, with the documented behaviour of these two methods; file names and `show` are not), `__copy__` guards,
`playaround/pgmpy_*.py` except `manual_bayes_net_test` (calls of a third party library), the plotting parts of `experiments/`.
Of the Berkeley "pacman" code in `demo/` the following is not modelled: `FirstPersonPacmanGraphics.lookAhead`, opening, resizing and closing windows, pauses (`sleep`, `pause`), Tk itself (what is
drawn is a list of canvas items, C71; clicks and keys are given as lists, C94, C57), `optparse` (the options after it are, C75), pickling of recorded games, the numbers of `FixedRandom`,
and the real clock (the time limits of C81 and C82 take the measured times as given).

## 5. Plan per property

* **C01, C02** provider as a state machine with fresh object ids; invariant by induction over call histories. `Model/ProviderCalls.lean` has the calls of a builder on the stateful provider; `C02_builder_calls` shows that they agree with the stateless functions of the schema used in the other models.
* **C03** case analysis over both internal orders.
* **C04** depth-first trace with fuel; invariant "traced is closed and reachable"; specification is `ReflTransGen` connectivity.
* **C05** invariant by induction over `add_relation` histories; acceptance as an iff; atomicity by construction of the state-and-error result, proved.
* **C06** exact characterisation of the call histories after which a builder is single valued, by induction over the history.
* **C07, C08, C09** loop invariant of the work-list rounds of `join_sample`, for all orders; progress from connectivity.
* **C10, C11, C12, C13, C14, C15, C16, C19, C48** algebra on `Finset`s.
* **C17, C18** layers of breadth-first search; distance specified by walks of minimal length, independent of the algorithm.
* **C20, C21, C22, C23** refinement of the dictionary to `SampleGraph → Option Int`.
* **C24** invariant of the merge loop; soundness in general, completeness from a condition on families of keys, which is exact for merging in any order; general form of loss.
* **C25, C26, C27** folds.
* **C28, C29, C30, C31, C32** sums over the dictionary, specification by `Finset` sums.
* **C33, C34** invariant of the incremental grouping; order independence through the iff.
* **C35, C36** uses C18 and the conditioning characterisation.
* **C37** induction over histories.
* **C38** odometer enumerates all index vectors; substitution step enumerates all valuations by induction over variables.
* **C39** recurrence from counting graphs by the component of a root vertex; the number of connected graphs is tied to the specification of C38. The computation with floats (`Verif/Model/PowerFloat.lean`) is exact below `2 ^ 53`, where the power of floats is assumed to be exact; larger numbers are not covered.
* **C40** value-swap bijection on the specification of C38.
* **C41** identity/untouched part in general; single-variable product on factorized samples.
* **C42, C44, C45** invariant over the variable elimination loop: the current factors are a coarsening of the original ones and each is the product table of its block.
* **C43** concrete witnesses.
* **C46** strings as `List Char`; sorting removes the order; separator lemma.
* **C47** heap model of the mutable containers with addresses; frame property by induction over histories; contents of every derived object.
* **C49** `__eq__`/`__hash__` as functions over abstract hash primitives; contract and its use by a hash table model.
* **C50** the loop over index vectors is the odometer of C38, the set of labelled graphs is the set of functions from pairs to optional types. `3 ** ((n * (n - 1)) / 2)` is a power of floats: a parameter that is exact where the power is a float, and overflows from `2 ^ 1024` on. The network is the one of `Model/Drawing.lean`.
* **C51** packing as base-2 digits of the flattened grid in words of 30; everything about grids goes through the relation `At`.
* **C52** closed forms of the two kinds of step, then an invariant over all sequences of moves; regions as closed sets of cells.
* **C53, C54** account and invariant over sequences of moves, from the closed forms of the steps; eaten ghosts bounded by a potential.
* **C55** invariant of the game loop (history, replay, index of the next agent) over turns with arbitrary agents; progress by the account of C53 and C52_never_stuck.
* **C56** forward simulation from the heap (entries in the order of their counts) to a list in insertion order; popping everything is insertion sort. `heapq` is a parameter with its documented contract.
* **C57** counters as functions of finite support (sums over a common finite set of keys); sampling by partial sums; the agents by their distributions, and C55 for the whole demo.
* **C58** loop invariant of the scan over the cells processed so far.

None of the properties is considered inexpressible; the runtime aspects left out are recursion depth outside of C65, C79 and C92 and float rounding outside of C39, C64, C70, C76, C77, C91 and C102.
* **C59** the outcomes made for a Bayesian network are complete tables (`Lemmas/Tables.lean`), one per variable; joining multiplies them, and sums over assignments are taken out in topological order. Results of `pgmpy` are arbitrary factors: the comparisons are characterised for all of them, and the checks of d-separation on all networks of tree shape (`Props/ChecksDecide.lean`), so that a check that cannot fail would not do. `int(prop * 100)` is taken on rationals.
* **C60** the same tables with one factor per edge; separation by splitting the product of the factors. That the checks raise whenever the distributions differ is in `Props/ChecksDecide.lean`. Factors of `pgmpy` are functions of assignments, their product is pointwise. The script compares floats with `==`; on rationals both sides are equal, for floats see C76.
* **C61** invariant of the elimination loop with a completion of each factor (`Lemmas/Gaps.lean`): a factor of single nodes that lacks a value behaves as if it had the value with count 1, because a group of one value in which it has no sample is joined without it. Texts of results are parsed by splitting and compared with a grammar of results.
* **C62** equality is equality of the visible parts; each rule is shown to respect states that differ only in what it does not read; hash functions are parameters.
* **C63** a second model of the game rules over a heap of objects (`Model/PacHeap.lean`); each rule is simulated by the rule on values and writes only to objects made in the same call, except the marks. This justifies modelling states as values in `PacGame.lean`.
* **C64** floats are the rationals `m * 2^e` of double precision, `fl` rounds to the nearest, half to even; every operation of the code is the exact operation followed by `fl`. Errors of sums by induction; the compensated sum of Python 3.12 by the exactness of the error term (Sterbenz).
* **C65** the recursive functions get the number `d` of nested calls that are still possible; running out is `RecursionError`. Distances are those of `Spec/Distance.lean`; the lower bound for `join_edges` is proved by an iteration order that takes far edges first. For an empty builder (`Props/DepthEmpty.lean`) the first edge of an order is as if it were there before.
* **C66** a drawing is a list of nodes and edges built by calls that skip a known id or pair and raise for an unknown end. The four pictures are lists of such calls; `Drawn` says which nodes and edges the result has.
* **C67** tables are dictionaries from sets of texts to rationals; the specification gives each text a variable and speaks of assignments, their parts and sums. The result of the nested loops is the list of combined pairs, which determines the dictionary when the union determines its two parts.
* **C68** names are an extra field over the models of relation graphs, conditional graphs and builders (`Model/Describe`); the specification of an edge set view is the relation `IsView` between samples and views, without reference to `edgesSetView`.
* **C69** needs no further model: the numbers read from the results of `marginals` (absent values read as zero) on spaces, conditional graphs and unions are compared with each other; masses are sums of counts.
* **C70** repeats the sampling functions of `util.py` and the ghosts of `ghostAgents.py` with rounding (`Verif/Model/PacFloat.lean`, on the float model of C64). Random numbers are the multiples of 2^-53 below one. Positions of agents are multiples of one half, so distances are exact and are not rounded. Ghosts have at most five legal actions; the theorems about them rest on the computation of all cases in the kernel and a proof that every state falls under one of them.
* **C71** models the canvas of `tkinter` as the list of items created so far (deleted ones are gaps) and follows `graphicsDisplay.py` with all its lists of item numbers (`Verif/Model/PacDisplay.lean`). The specification (`Verif/Spec/PacDisplay.lean`) draws a picture of a state from scratch, without item numbers. The proof keeps a table saying which slot of the canvas belongs to which thing (`Verif/Lemmas/PacDisplay.lean`), established by `initialize` (`Verif/Lemmas/PacDisplayInit.lean`). Coordinates are rationals; `math.sin(math.pi * x)` is a parameter that is 0 at 0.
* **C72** specifies the drawing in one corner of a wall, with signs for the four corners (`Verif/Spec/PacWalls.lean`), and proves that the 100 lines of `drawWalls` are its four mirror images (one line is one pixel longer). Closedness is proved through the eight points where an outline can pass from one corner to the next. An arc is treated as a quarter of a circle, though the program lets it go on for one more degree.
* **C73** models the printing with its overwritten grid of characters (`Verif/Model/PacText.lean`) and specifies each cell on its own (`Verif/Spec/PacText.lean`): an agent belongs to the cell whose centre is nearest. Reading back uses the parser of C58.
* **C74** models the search for layouts over an arbitrary file system, a function from directories and relative names to entries (`Verif/Model/PacLoad.lean`). Decoding, translation of line ends, permissions and changes of the files during the search are not modelled. The specification lists the places in order (`Verif/Spec/PacLoad.lean`).
* **C75** models the command line after `optparse` and a session of games (`Verif/Model/PacSession.lean`). The surroundings are parameters: files, directory listings, the names of importable modules, which calls of a class are accepted. The specification of the repository's own surroundings (`InDemo`) lists the two agent modules with the names `dir` gives and the parameters of their classes. A session is over arbitrary finished games; that these are games is added in `C75_results` with C55. `optparse`, the display and `pickle` are not modelled, nor the use of a class found under a name that is no agent.
* **C76** repeats the functions of C60 with rounding (`Verif/Model/MarkovFloat.lean`, on the float model of C64). How `numpy` adds is a parameter (`NpSum`): any function whose results can be obtained by adding the numbers in some order with some brackets, rounding each time (`AddsTo`). Sums of whole numbers up to 2^53 are exact in every order; for the counterexample the possible partial sums form a finite table closed under addition.
* **C77** repeats the functions of C59 with rounding (`Verif/Model/BayesFloat.lean`), with the parameter `NpSum` of C76 for the marginals of a factor. Rounding `prop * prop_factor` is the same as changing the numbers of the tables, so the graph is an exact graph of C59. Relative counts and marginals are correctly rounded quotients (C64); the two tolerances follow from the relative error of one rounding.
* **C78** the loops of `_siftdown` and `_siftup` move a hole; the invariants (`Down`, `Up` in `Verif/Props/PyHeapq.lean`) speak about the list with the new item written into the hole. The functions follow `Lib/heapq.py` of CPython, which is not part of the repository (`Verif/Model/PyHeapq.lean`).
* **C79** the limited functions (`Verif/Model/JoinDepth.lean`) are those of C42 and C43 with a counter; `Lim` says that a limited computation is the unlimited one or `RecursionError`. In the last round all the remaining blocks have the last variable, there are at most k, and one of them has at least (n-1)/k other variables, so at least 2^((n-1)/k) of its joins have a given value.
* **C80** `Verif/Model/PacQuery.lean` models the queries and moves again with integers as indices and Python's index rules; sharing is stated on the heap of C63.
* **C81** `Verif/Model/PacTimeout.lean` models programs by time, exceptions and `try`, and the process by handler and pending alarm.
* **C82** `Verif/Model/PacTimed.lean` models `Game.run` with the times of all calls of agents, `mute`/`unmute` and the signals of C81.
* **C83** `Verif/Lemmas/PairElim.lean` relates the elimination of C43 to graphs of Mathlib: acyclic graphs meet the condition of `elimOk_tree`, and in a connected graph with a cycle and a variable in three sets there is an order that fails (the inner variables of the cycle first). `Verif/Props/PairNetworks.lean` states the result on outcomes.
* **C84** `Verif/Lemmas/PartsElim.lean` gives an invariant of the elimination of C43: after some variables are eliminated the sets left are the unions of the parts linked by these variables. `Verif/Props/Parts.lean` states the result on outcomes, without sets, lists or steps of the procedure.
* **C85** `Verif/Lemmas/FieldsElim.lean`: with a set of its own for each variable, merging sets that meet in the variable alone keeps the sum of the sizes minus the number of sets, so the count at the end gives a tree. `Verif/Props/Fields.lean` states the result on outcomes.
* **C86** `Verif/Lemmas/CutsetElim.lean`: the elimination of C43 with the sets restricted to the variables of two values or more; eliminating the others last succeeds if these sets form a forest, and with a set of its own for each variable each success shows a forest. `Verif/Props/Cutset.lean` states the result on outcomes and follows the scopes and values through `conditional_graph`.
* **C87** `Verif/Model/PacOverlay.lean` adds the order of the items to the screen of C71 (`tag_lower`), `Verif/Spec/PacOverlay.lean` says with a small machine (`OState`) what is to be seen, and `Verif/Props/PacOverlay.lean` shows by an invariant on the identifiers that the screen follows it.
* **C88** `Verif/Lemmas/JoinBlocks.lean` has the state of the loop: the outcomes are the joins of the blocks of a partition of the factors, blocks have no common variable of those done. `Verif/Props/JoinMany.lean` states the result with chains of outcomes (`JoinedBy` of C84).
* **C89** `Verif/Props/Posterior.lean` states the posterior as brute force sums over all assignments (`totalWeight`), independent of joining, and proves that conditioning, `joined_on_variables` and `marginal_variables_probability` compute it.
* **C90** `Verif/Props/EdgeEvidence.lean` compares conditioning with one sample graph on several variables to conditioning one variable after the other (C89).
* **C91** `Verif/Props/PosteriorFloat.lean` composes C89 with the floating-point model of C64.
* **C92** `Verif/Model/JoinOnDepth.lean` models `joined_on_variables` with the recursion of `group`, `cross_join` and `join_edges` limited; `Verif/Props/JoinOnDepth.lean` bounds it with the invariant of the loop of C88.
* **C93** `Verif/Props/SameContent.lean` compares two runs; it is built on the exact specifications of C28 to C36, C41, C42, C88 and C89.
* **C94** `Verif/Model/PacIO.lean`, `Verif/Props/PacClicks.lean`: the pending clicks are the fold of a list of clicks; one round is characterised by that list.
* **C95** `Verif/Props/PacIO.lean`: the specification looks at the last call in the prefix before a print.
* **C96** `Verif/Props/PacIO.lean`: names are compared by the value of their digits and, below 10^8, as texts of eight digits.
* **C97** `Verif/Props/PacIO.lean`.
* **C98** `Verif/Props/PacNeighbors.lean`: the specification is the distance of cells; the loop is compared with a filter of the five candidates.
* **C99** `Verif/Model/PacFirstPerson.lean`, `Verif/Props/PacFirstPerson.lean`: the methods of the base class with the overridden ones called; they are shown to do what `PacmanGraphics` does on a state whose unseen ghosts were moved away, then the invariant of C71 is used.
* **C100** `Verif/Model/VarText.lean`, `Verif/Props/VarText.lean`: a row of texts determines the multiset of its parts; `sorted` of two variables asks `<` once, the comparison is a parameter that may raise.
* **C101** `Verif/Model/Len.lean`, `Verif/Props/Len.lean`: the built-in `len` with its `Py_ssize_t` of 64 bits; the bound on totals injects joined outcomes into choices of one outcome per factor.
* **C102** `Verif/Model/ManualFloat.lean`, `Verif/Props/ManualFloat.lean`: `Near k` is closed under products, quotients and sums; float and exact tables are built in parallel with the same keys.
* **C103** `Verif/Model/BigCounts.lean`, `Verif/Props/BigCounts.lean`: the loop meets each value once, so that the sum of a value is its rounded count; infinities are `none`.
* **C104** `Verif/Model/BigActivation.lean`, `Verif/Props/BigActivation.lean`: the loop has the same keys as the exact one, so that only `OverflowError` is new; the partial sums are at most the last ones, which C64 bounds. Up to 2^960 outcomes the weights are shown to be near the exact ones (`C104_range`); between 2^960 and 2^1024 nothing is stated.

## 6. Disagreements between code and intent found while modelling

Each is a theorem (or a witness) of the model; the names are in brackets.

1. `add_relation` does not enforce one value per variable; `build_from_edges` enforces neither one value per variable nor one relation per pair (C05, C06).
2. `is_subgraph` has its docstring reversed; `is_edges_connected(∅)` raises `StopIteration` (C04, C13).
3. `group_intersecting` can drop samples: `sample_acc[k_a | k_b] = …` may overwrite a third group; it can also trip its own assertion on legitimate inputs, and single node samples use a key of variables where sets of variables are expected (C24).
4. `can_join_samples` looks only at variables common to *all* samples (C26). Hence `make_joined` raises `AssertionError` for every complete network on four or more variables and for every network whose factors are not connected; for a cycle of four factors with a chord the result, or whether it raises, depends on the iteration order of a set; for trees, and for connected networks in which no variable is in more than two factors (chains, cycles), it is always right (C42, C43, C43_two_factors).
5. `make_joined` drops outcomes, raises `TypeError` or depends on iteration order when factors lack some value combinations (C43).
6. `marginal_variables_probability(unobserved=True)` overwrites a value named `'u'` and then always raises for positive counts; `FoldedNode.marginal_distribution` collides with a value named `'unobserved'` (C29, C31).
7. `external_nodes`, hence `activation_graph`, omits edges between equally distant nodes; evidence edges ignore `relation_filter` and are counted for every selected outcome, also those disjoint from the evidence; the second assertion of `activation_graph` can never fire because the flags compared always differ (C18, C36).
8. `can_sample_be_joined` ignores value conflicts and connectivity (C09).
9. `joined_on_variables` raises `TypeError` for single node outcomes when the variable is not iterable (C41).
10. `string_id` is not injective; `SampleGraph.builder()` hands on the name of the graph, so that a graph extended through it keeps an outdated name in `repr` and `print_samples` (C46).
11. Providers keep the dictionaries of the user by reference; a `RelationGraphBuilder` shares a non-empty `SampleSetBuilder` passed to it but silently ignores an empty one; two `SampleGraphBuilder`s over the same non-empty sets have separate endpoint indices and can produce parallel edges (C47).
12. Equality of folded graphs ignores the number of outcomes; `VariablesGraph` defines `__eq__` without `__hash__` and is therefore unhashable (C49).
13. `number_of_subgraphs` raises `IndexError` for fewer than two nodes (C50).
14. The rules of the demo game rely on the border of the maze being closed: `getPossibleActions` indexes the wall grid with `-1` or past the end otherwise, so without a border agents wrap around or an `IndexError` is raised; layouts are not checked for it (C52_border_needed).
15. Scared ghosts move by half cells; when the timer ends half-way the position is rounded up, so that the last scared move to the west or south does not move a ghost at all and one to the east or north is a whole cell (C52_last_scared_move).
16. A ghost sent back to its start is not examined again: both can stand on one cell in an open game (C54_respawn_overlap). If several ghosts reach Pacman in one move of Pacman, 500 is subtracted for each (C53_pacman_step).
17. `Game.run` never increases `numMoves`; `deepCopy` drops the flags of a finished game; `newGame` keeps one agent per ghost but places one state per `P`, so that with more than one `P` the turns and the states differ (C55_agents); `getProgress` is the share of food that is *left* and divides by zero without food (C55_progress).
18. `sample` compares with `>`: for the random number 0 it returns the first value even if its weight is zero (C57_sample_zero); `nSample` compares with `<` and does not. `Counter.argMax` and `sortedKeys` raise in Python 3, `__radd__` has no result, `normalize` leaves an empty counter as it is although its documentation announces an error (C57_python3, C57_radd, C57_normalize). A directional ghost without legal action raises `ValueError`, a random one answers `Stop`, which is illegal (C57_directional, C57_random_ghost).
19. `PriorityQueueWithFunction` inherits an `update` that calls `push` with two arguments and fails for new items (C56_function_update); with several occurrences of an item `update` may lower any of them, depending on the array order of the heap (C56_duplicates); `arrayInvert` raises for matrices that are wider than high and returns empty rows for those that are higher than wide (C56_arrayInvert).
20. `make_relation_graph` of the Bayesian experiment needs every probability times 100 to be a positive integer: a probability of zero raises `AssertionError`, and with floats eight of the probabilities with two decimals, such as 0.07 and 0.29, fail the assertion only because of rounding (C59_make_relation_graph, C64_percent). Names of variables that are part of the text of another value of the family confuse `_build_outcome`, and `_value_map_from_factor` reads one character of the name and one digit (hypotheses `Net.names`, `ShortNames`).
21. A factor value of zero is legitimate in a Markov network, but `make_relation_graph` raises `AssertionError` for it, since counts have to be positive (C60_make_relation_graph).
22. When a value of a variable was never observed alone, `make_joined` joins the other factors without the single node factor, which is the same as count 1 for the value (C61_tree). In the example of the coins (`building_net_with_joint_probability.py`) all tails thus gets count 1 though 1¢ and 5¢ never showed the tail alone, and h3 likewise.
23. `building_net_from_coin_toss.py`: the word between two tosses is not looked at, and a list with any malformed text raises as a whole (C61_coin_accepts).
24. Equality of game states does not see whether the game is lost: a lost state and an open one of the same game can be equal (C62_lose), so one of them can hide the other in a set or dictionary.
25. `_eaten` is shared: a ghost's move writes the mark into the list object of the predecessor state, and `deepCopy` does not copy the list (C63_marks_shared, C63_marks_tied). The marks are not read by the rules (C63_marks_unused), only by displays.
26. Up to Python 3.11 `probabilities()` of a correct sample set can fail its own assertion: with a dominating sample first in the set order and more than 2^25 rare ones, adding the rare ones does not change the sum (C64_assertion_fails, C64_skewed). Below nine million samples this cannot happen (C64_probabilities).
27. `group_intersecting` recurses once per merged pair of groups, so a set of 1000 samples with different links and a pair in common exceeds the default recursion limit of Python (C65_group_fan); `is_edges_connected` does so for a line of 2000 edges and for a complete graph of 1000 nodes (C65_trace_line, C65_trace_complete).
28. `visualize_outcomes` raises `IndexError` for a space with the empty outcome (C66_outcomes_raises). It appends the number of the outcome to the text of a node without a separator, so with eleven outcomes `a=1` of outcome 10 and `a=11` of outcome 0 can become one node (C66_outcomes_collision). `SampleGraph.visualize` draws a loop when two nodes have the same `string_id` (C66_sample_loop). The folded picture shows two relations with equal text and equal count as one (C66_folded_merged). The black branch of `ActivationGraph.visualize` is never taken, as activation graphs contain all declared variables (C66_activation).
29. `cpd_product` of the manual Bayesian test combines keys that have *some* element in common without checking the rest: with two common variables it creates keys with two values of one variable, without common variables the result is empty (C67_product_clash, C67_product_apart). The script stays within the correct case of one common variable. `margin` looks for the name of the variable anywhere in a text (C67_margin_order).
30. A relation graph built from `graph.builder()` keeps the default name of the first graph, which then states a wrong number of outcomes (C68_stale_name). `SampleGraphBuilder.__repr__` calls itself `RelationGraphBuilder` (C68_sample_builder_text shows that the rest of the text still tells them apart). A conditional graph without outcomes can be turned into a relation graph by `relation_graph()` but not by `builder().build()` (C68_back).
31. In graphs that are not joined the numbers of a conditional graph do not satisfy Bayes' theorem or the law of total probability, because outcomes without the observed variables are kept with their full count (C69_loose; an example gives 5/6 in place of 3/4).
32. `util.sample`, `nSample` and `chooseFromDistribution` do not guard against the accumulated total staying below the random number: `IndexError` (or `None`) is possible with seven equal weights in Python 3.12, or with the weights 0.7, 0.9, 0.8 before (C70_sevenths, C70_three, C70_none). A `DirectionalGhost` with `prob_attack=0.7` can crash the game this way (C70_directional_raises); the ghosts used by the demo cannot (C70_demo).
33. The display redraws only the agent that just moved. After Pacman ate a capsule the ghosts keep their colour until their own next move (C71_stale_colour), and a ghost that was eaten by Pacman is drawn at the place of the meeting although it is back at its start (C71_stale_place). With six or more ghosts the display raises `IndexError`, because colours are looked up by the index of the agent and the first of the six colours is never used (C71_many_ghosts). `pacman.py` imports a module `textDisplay` for quiet games and training games which is not in the repository.
34. In the text of a state capsules are drawn after the agents, so that a ghost on a capsule is invisible (C73_hidden_ghost), and a ghost that was eaten while Pacman stood on the ghost's start hides Pacman (C73_hidden_pacman). The printed text cannot be loaded as a layout for playing on, because Pacman's characters are not those of layouts (C73_read_back).
35. `getLayout` changes the current directory and does not change it back when the file found is broken (C74_left). A layout file with an empty line at its end, or with blanks at the end of a line, is refused with `IndexError`; too long lines are cut silently (C74_refused, C74_cut, C74_outer).
36. `make_joined_sample` joins in the order of insertion and needs each sample to touch the earlier ones, so that of two sets that compare equal one can be joined and the other raises `AssertionError` (C27_order_matters).
37. `make_all_sub_graphs` compares the number of graphs with `3 ** (n(n-1)/2) + n` computed with floats. From nine nodes on this can not hold: the number is no multiple of four but too large for an odd number or its double to be a float (C50_too_many). The loop is too long for this to be seen in practice.
38. There is no module `textDisplay`, so the options `-t` and `-q` end in `ModuleNotFoundError`; with `-x` the number of training games is passed as a keyword no agent class accepts, so that it ends in `TypeError` (C75_command). The name of a recorded game has no separator between the number of the game and the month, so that game 1 of November and game 11 of January may share a file (C75_names). The number of ghosts is not recorded. A crashed game is reported as a loss (C75_results).
39. `comparing_variable_joint_probability` of the Markov experiment normalises the factor, and `_get_markov_prop` normalises a copy of it once more, while the probabilities of the graph are normalised once; the results are compared with `==`. So the comparison can fail although both distributions are the same: for one edge with values 8, 9, 9, 9 it fails in every order of adding (C76_markov_joint_fails), and with the numbers of the script it depends on the order (C76_markov_experiment).
40. The comparisons of the Bayesian experiment use the relative tolerance 1e-15, about nine times the relative error of one rounding. A factor value may deviate by at most 1.112e-15 of the exact probability (C77_tolerance), so whether the comparison of marginals, which are sums of up to 24 rounded values, succeeds is not guaranteed by the values being the nearest floats; for the network of the script it does succeed when the nearest floats are added in the order of the array or in the opposite order (C77_student_joint).
41. `make_joined` cannot join a chain of 20 variables with two values within the default recursion limit: `join_sample_set` recurses once for each outcome of a factor that has a value, and the factors grow exponentially (C79).
42. `getGhostState` refuses index 0 but not `-n`, which is Pacman, too; a move with this index makes Pacman collide with itself and loses the game (C80). `getFood` hands out a grid whose rows are shared with other states (C80).
43. `TimeoutFunction` does not cancel the alarm when the function raises (`signal.alarm(0)` comes after the `finally`), so a later SIGALRM ends the process (C81). Limits are not nested and a limit of 0 is none (C81). A limit of 2^31 or more makes `signal.alarm` raise `OverflowError` before the `try`, so that the handler is not restored (C81_overflow); with `--timeout 3000000000 --catchExceptions` the first agent counts as crashed without having been called (C82_overflow), and with `--timeout 0` or a negative number every answer is too late, but nobody is interrupted (C82_nonpositive).
44. The limit of `getAction` is reduced by the whole seconds of the observation only, so a move may take up to a second more than the limit before it is interrupted (C82). An exception of `final` makes a finished game count as crashed and the other agents are not told (C82). Without `catchExceptions` an exception of a muted agent leaves `sys.stdout` redirected (C82).
45. For each connected pairwise network with a cycle and a variable in three factors (a triangle with one more pair, or with a potential on one of its variables) there is an iteration order of a Python set for which `make_joined` raises (C83); for others it may return (C43). With variables that are strings the order depends on the hash seed of the process.
46. A pairwise network with a cycle and a potential on each variable (an Ising model with a field on a grid, say) is never joined: `make_joined` raises AssertionError for every hash order, although the joint distribution is well defined (C85).
47. Observing a variable of each cycle (a loop cutset) can make a network joinable that is never joined before, but only for some hash orders: the triangle with a potential on each variable and one variable observed is joined for some orders and not for others (C86, observed_triangle).
48. `updateDistributions` makes an iterator with `map` (graphicsDisplay.py 592) and goes through it for each cell (598). In Python 3 it is used up after the first cell, so all cells but (0, 0), which is a wall, stay black: belief distributions are never shown. `setTeam` (124-127) calls its local string `text` and always raises TypeError. When `updateGhostDistances` is called with fewer distances than before, the old texts of the others stay (C87).
49. `joined_on_variables` on several variables is the better `make_joined`: it computes the product on all connected networks of complete factors with different variables (C88). If outcomes clash on a variable (no consistent combination of the outcomes of the factors with it) they all disappear and their condition is lost for the variables after it, so that the result depends on the iteration order of the set of variables (C88_order_counterexample).
50. Observing an edge (`conditional_graph` with a sample graph of two linked variables) of a factorized graph drops all neighbouring factors: in a pairwise network the observation has no influence on any other variable and `make_joined` then always raises `AssertionError` (C90_no_influence, C90_never_joined; in the chain 0-1-2-3 of fourChain_edge the program states 3/10 for `3=0` whatever was observed, while observing the two variables one after the other and joining gives 7/22 or 5/16, fourChain_pieces). Observe the variables one by one (C89) instead.
51. **`make_joined` is limited to networks of about twenty variables by the recursion limit; `joined_on_variables` is not (C79, C92).** `join_factors` nests one call per outcome of a factor, the number of which doubles with each variable; `cross_join` nests one call per group. For the chain of 20 to 997 two-valued variables the first raises `RecursionError` and the second returns the same product within the default limit of 1000 (the other frames, a fixed number, not counted). It still has to build all joint outcomes.
52. `lookup` compares `str(type(obj))` with `"<type 'module'>"` (util.py 586), which is `"<class 'module'>"` in Python 3, so that imported modules are never searched (C97_plain); and `__import__('a.b')` returns the package `a` (583), so that `lookup('a.b.x', ...)` looks for `x` in `a` (C97_package).
53. `getPossibleActions` does not check the range of the next cell as `getLegalNeighbors` does, so that on a maze without a border an agent may walk out through the left side if the last column is free (C98_wrap); and `getLegalNeighbors` checks `next_x == walls.width` only, so that it raises `IndexError` for positions right of the grid, while positions up to 1.5 left of it are taken for the border cell, because `int` truncates towards zero (C98_outside, C98_left).
54. `FirstPersonPacmanGraphics.getGhostColor` ignores that ghosts can be scared, but `moveGhost` does not call it; so the override has no effect after the first drawing (C99_screen: the colours are those of C71). `lookAhead` calls `state.getVisibleGhosts`, which does not exist; nothing calls `lookAhead`.
55. `VariableEdge.__repr__` and its overrides sort the variables themselves, while `RelationEdge.__repr__` sorts their texts: with variables that cannot be compared (an `int` and a `str`) printing an edge of a folded graph raises `TypeError` (C100_edge_raises), with frozensets the text depends on the order of iteration (C100_edge_unordered).
56. `SampleSet.__len__` returns the total of the counts, not the number of samples: two factors counted 2^32 times each join to a graph whose `len(outcomes)` raises `OverflowError` (C101_joined_case). Counts are not checked by `SampleSetBuilder.add`: with negative ones `len` raises `ValueError`. The attribute `length` has no such limit.
57. With tiny probabilities the products of `cpd_product` underflow and `norm` raises `ZeroDivisionError` although every probability is positive (C102_underflow).
58. `FoldedNode.marginal_distribution` adds counts to floats and divides floats by the number of outcomes: from 2^1024 outcomes on it raises `OverflowError`, even if each count has a float (C103_case). `unobserved_count` and the quotient for `'unobserved'`, computed with integers only, have no such limit.
59. `activation_graph` multiplies floats by counts and divides them by the number of outcomes: with 2^1024 outcomes or more it raises `OverflowError` even if each count has a float (C104_case).
