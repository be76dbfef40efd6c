{"id": "C01", "title": "Variable handles inside a group are distinct", "statement": "For every variable group of at most 10^9 variables, the list `group.variables` contains no handle twice, every hash fits in a signed 64-bit integer, and the construction-time assertion on the group hash never fails.", "quantifier": "every object id, every shape / number of variables up to 10^9, every assignment of state counts", "why_tests_cant": "ids are chosen by the allocator and the range of sizes is astronomically large; a test sees a handful of ids and tiny groups.", "anchors": ["pgmax/vgroup/vgroup.py:VarGroup.__post_init__", "pgmax/vgroup/varray.py:NDVarArray.variable_hashes", "pgmax/vgroup/vdict.py:VarDict.variable_hashes"]}
{"id": "C02", "title": "Distinct variable groups are never conflated", "statement": "Two different live variable groups never compare equal and never share a variable handle, so that evidence, beliefs and factors of one group can never be attributed to the other.", "quantifier": "every pair of live groups, i.e. every pair of distinct object ids, and all group sizes up to 10^9", "why_tests_cant": "depends on the ids the allocator hands out; a collision needs two ids congruent modulo 2^32, which tests never produce.", "anchors": ["pgmax/vgroup/vgroup.py:VarGroup.__post_init__", "pgmax/vgroup/vgroup.py:VarGroup.__eq__", "pgmax/vgroup/vgroup.py:VarGroup.__lt__"]}
{"id": "C03", "title": "Array indexing returns the row-major variable", "statement": "For an NDVarArray, `array[i1,...,ik]` with a full in-range index (negative indices counting from the end) returns exactly the handle and state count found at the row-major position of that index in `array.variables`; two in-range indices return the same handle iff they denote the same cell; an out-of-range index raises.", "quantifier": "every shape (any number of dimensions, any sizes), every index tuple", "why_tests_cant": "infinitely many shapes and index tuples.", "anchors": ["pgmax/vgroup/varray.py:NDVarArray.__getitem__", "pgmax/vgroup/varray.py:NDVarArray.variable_hashes", "pgmax/vgroup/vgroup.py:VarGroup.variables"]}
{"id": "C04", "title": "Array slicing selects exactly the sliced variables", "statement": "For an NDVarArray, `array[s1,...,sk]` with slices returns the list of the variables whose index lies in every slice, once each and in row-major order, each equal to what single-element indexing returns.", "quantifier": "every shape and every tuple of slices with start/stop bounds (negative, omitted or beyond the end) and positive steps", "why_tests_cant": "infinitely many shapes and slices.", "anchors": ["pgmax/vgroup/varray.py:NDVarArray.__getitem__"]}
{"id": "C05", "title": "Array flatten/unflatten round trip on structured data", "statement": "For an NDVarArray, unflatten(flatten(data)) returns the data: for data of the array's shape exactly; for data of shape `shape + (max num_states,)` the same value at every valid state of every variable and -inf in every padding entry.", "quantifier": "every shape, every array of state counts, every data array of an accepted shape", "why_tests_cant": "all shapes and all mixed state counts; the case in which the two accepted flat sizes coincide is never exercised by tests.", "anchors": ["pgmax/vgroup/varray.py:NDVarArray.flatten", "pgmax/vgroup/varray.py:NDVarArray.unflatten"]}
{"id": "C06", "title": "Array unflatten/flatten round trip on flat data, and exact acceptance", "statement": "For an NDVarArray, unflatten accepts a flat array iff its length is the number of variables or the total number of states, flatten accepts data iff it has one of the two documented shapes, everything else raises ValueError, and flatten(unflatten(x)) = x for every accepted flat array x.", "quantifier": "every shape, every array of state counts, every flat array / every data array", "why_tests_cant": "all lengths and shapes have to be considered.", "anchors": ["pgmax/vgroup/varray.py:NDVarArray.flatten", "pgmax/vgroup/varray.py:NDVarArray.unflatten"]}
{"id": "C07", "title": "Dictionary flatten/unflatten round trip", "statement": "For a VarDict with distinct names, at least one, flatten(unflatten(x)) = x for every accepted flat array; unflatten(flatten(data)) = data for data that gives one value per variable or all states of every variable; data naming a foreign variable, or with an array of a wrong length, or missing a variable, is rejected.", "quantifier": "every non-empty tuple of distinct names, every vector of positive state counts, every data mapping, every flat array", "why_tests_cant": "all name tuples, state vectors and mappings.", "anchors": ["pgmax/vgroup/vdict.py:VarDict.flatten", "pgmax/vgroup/vdict.py:VarDict.unflatten", "pgmax/vgroup/vdict.py:VarDict.__getitem__"]}
{"id": "C08", "title": "Variable blocks partition the flat evidence array", "statement": "In a FactorGraph built over distinct variable groups, every variable owns the contiguous block [start, start+num_states) of the flat evidence array; blocks of different variables are disjoint, and together they cover exactly [0, number of variable states).", "quantifier": "every list of variable groups, every state count", "why_tests_cant": "all group lists and all state-count vectors.", "anchors": ["pgmax/fgraph/fgraph.py:FactorGraph.__post_init__", "pgmax/fgraph/fgraph.py:FactorGraphState"]}
{"id": "C09", "title": "No two factors of one type over the same variables", "statement": "After every sequence of add_factors calls (single factors, groups, nested lists; some of them rejected and the error caught), the graph never holds two factors of the same factor type over the same set of variables, in whatever order the variables are listed; and an add of a factor over an already used set raises.", "quantifier": "every history of add_factors calls including failing ones", "why_tests_cant": "histories are unbounded, and include recoveries from errors.", "anchors": ["pgmax/fgraph/fgraph.py:FactorGraph.add_factors"]}
{"id": "C10", "title": "A rejected add_factors leaves the graph unchanged", "statement": "If add_factors(group) raises, the graph behaves as if the call had not been made: the factors in the graph are unchanged, and exactly the same later add_factors calls are accepted.", "quantifier": "every reachable graph, every rejected group, every later add", "why_tests_cant": "requires quantifying over failure points inside the loop over the factors of the group.", "anchors": ["pgmax/fgraph/fgraph.py:FactorGraph.add_factors"]}
{"id": "C11", "title": "Message and potential offsets partition the flat arrays", "statement": "In every compiled graph, the ranges of the factor types partition the flat message array and the flat log-potential array in the fixed type order; within a type the factor groups occupy consecutive blocks in the order in which they were added; each block has exactly the length of the group's own edge states / log potentials.", "quantifier": "every graph reachable by add_factors calls", "why_tests_cant": "all numbers, kinds, sizes and orders of groups.", "anchors": ["pgmax/fgraph/fgraph.py:FactorGraph.compute_offsets", "pgmax/fgraph/fgraph.py:FactorGraph.fg_state"]}
{"id": "C12", "title": "A compiled state is never stale", "statement": "fg.fg_state / fg.bp_state always describe the variables and factors that are in that graph at the moment of the call: for every interleaving of graph constructions, adds and queries over any number of graphs, the returned state equals what compiling that graph from scratch would give.", "quantifier": "every interleaving of add_factors / compute_offsets / fg_state / bp_state calls on any number of graphs in one process", "why_tests_cant": "the memoisation is process-global and keyed by hash and equality; staleness depends on the history across graphs.", "anchors": ["pgmax/fgraph/fgraph.py:FactorGraph.__hash__", "pgmax/fgraph/fgraph.py:FactorGraph.compute_offsets", "pgmax/fgraph/fgraph.py:FactorGraph.fg_state", "pgmax/utils.py:cached_property"]}
{"id": "C13", "title": "Enumeration wiring connects each edge state to the right variable state", "statement": "In the compiled wiring of an enumeration factor group, the entry for (factor f, configuration c, position i) carries configuration index f*num_configs+c and points at the edge state (edge of position i of factor f, state configs[c][i]), and the entry for edge state (edge e, state s) points at evidence position start(variable of e)+s.", "quantifier": "every group size, scope, state counts and configuration table", "why_tests_cant": "all group shapes; the loops are index arithmetic over flat arrays.", "anchors": ["pgmax/factor/enum.py:EnumFactor.compile_wiring", "pgmax/factor/enum.py:_compile_enumeration_wiring_numba", "pgmax/factor/factor.py:_compile_var_states_numba"]}
{"id": "C14", "title": "Grouped and individual factors compile to the same wiring", "statement": "Adding N enumeration, OR or AND factors as one factor group or as N single factors (or splitting an enumeration group anywhere into two groups) yields identical wiring and log-potential arrays.", "quantifier": "every number of factors, every scope, every configuration table, every split point", "why_tests_cant": "the tests compare ten fixed factors; the claim is about all sizes and splits.", "anchors": ["pgmax/factor/enum.py:EnumFactor.concatenate_wirings", "pgmax/factor/logical.py:LogicalFactor.concatenate_wirings", "pgmax/fgroup/fgroup.py:SingleFactorGroup"]}
{"id": "C15", "title": "Logical wiring points at the relevant states of parents and child", "statement": "In the compiled wiring of a group of OR (AND) factors, factor f's parent entries are tagged with f and point in order at state 0 (state 1) of each of its parents' edges, its child entry points at state 0 (state 1) of its last variable's edge, and adding the edge offset reaches the other state of the same edge.", "quantifier": "every list of factor sizes (each at least 2)", "why_tests_cant": "all combinations of factor sizes.", "anchors": ["pgmax/factor/logical.py:LogicalFactor.compile_wiring", "pgmax/factor/logical.py:_compile_logical_wiring_numba"]}
{"id": "C16", "title": "Every graph of valid factors compiles", "statement": "Every FactorGraph to which valid factors and factor groups were added can be compiled, whatever the grouping of OR/AND factors into groups.", "quantifier": "every sequence of valid add_factors calls", "why_tests_cant": "depends on how many groups there are and on the size of each.", "anchors": ["pgmax/factor/logical.py:LogicalFactor.concatenate_wirings", "pgmax/factor/logical.py:LogicalWiring.__post_init__"]}
{"id": "C17", "title": "Compiled indices are always in range", "statement": "For every compiled graph of valid factors each index stored in the wiring lies inside the array it is used to index, so out-of-bounds gathers and scatters (which JAX clamps or drops silently) never happen during inference.", "quantifier": "every graph of valid factors", "why_tests_cant": "JAX never reports an out-of-range index, so tests would not even notice one.", "anchors": ["pgmax/factor/enum.py:EnumWiring", "pgmax/factor/logical.py:LogicalWiring", "pgmax/infer/bp.py:BP"]}
{"id": "C18", "title": "Invalid configurations are rejected", "statement": "A factor whose configuration table has the wrong width, a wrong number of log potentials or a value outside a variable's state range is rejected with ValueError before it can take part in inference, whether it is added alone or through a factor group.", "quantifier": "every table, every scope, every potential array", "why_tests_cant": "all tables, including the ones reached only through groups.", "anchors": ["pgmax/factor/enum.py:EnumFactor.__post_init__", "pgmax/fgroup/enum.py:EnumFactorGroup.__post_init__", "pgmax/factor/logical.py:LogicalFactor.__post_init__", "pgmax/fgroup/logical.py:LogicalFactorGroup"]}
{"id": "C19", "title": "Pairwise potential matrices land on the right state pairs", "statement": "In a PairwiseFactorGroup, the log potential used for factor f and states (a,b) is log_potential_matrix[a,b] (shared) or log_potential_matrix[f,a,b] (per factor), the configuration table lists every pair exactly once, and updating the group's log potentials with a matrix is the same as having built the group with it.", "quantifier": "every number of factors, all state counts, every matrix", "why_tests_cant": "all sizes; row-major index arithmetic.", "anchors": ["pgmax/fgroup/enum.py:PairwiseFactorGroup.__post_init__", "pgmax/fgroup/enum.py:_compute_log_potentials", "pgmax/fgroup/enum.py:PairwiseFactorGroup.flatten"]}
{"id": "C20", "title": "Factor-group flatten/unflatten round trip", "statement": "For enumeration and pairwise factor groups unflatten(flatten(data)) = data for per-factor log potentials and for factor-to-variable messages, and shared data is expanded to one copy per factor; all other shapes raise.", "quantifier": "every group and every data array", "why_tests_cant": "all sizes, including those at which two accepted flat sizes coincide.", "anchors": ["pgmax/fgroup/enum.py:EnumFactorGroup.flatten", "pgmax/fgroup/enum.py:EnumFactorGroup.unflatten", "pgmax/fgroup/enum.py:PairwiseFactorGroup.flatten", "pgmax/fgroup/enum.py:PairwiseFactorGroup.unflatten"]}
{"id": "C21", "title": "Log-potential updates hit exactly the group's block", "statement": "Setting the log potentials of a factor group makes exactly that group's log potentials read back as the given data, leaves the log potentials of all other groups unchanged, preserves the array length, and rejects groups not in the graph and data of a wrong size.", "quantifier": "every compiled graph, every group in it, every data array, every prior array", "why_tests_cant": "all graphs and positions of the group.", "anchors": ["pgmax/infer/bp_state.py:update_log_potentials", "pgmax/infer/bp_state.py:LogPotentials.__getitem__", "pgmax/infer/bp_state.py:LogPotentials.__setitem__"]}
{"id": "C22", "title": "Evidence updates hit exactly the named variables", "statement": "Setting evidence for a variable (its num_states values) or for a variable group (all states of all its variables) makes the evidence of those variables read back as given, leaves the evidence of all other variables unchanged and preserves the array length; names not in the graph are rejected.", "quantifier": "every graph, every variable or group, every data of the documented shape", "why_tests_cant": "all graphs, group orders and state counts.", "anchors": ["pgmax/infer/bp_state.py:update_evidence", "pgmax/infer/bp_state.py:Evidence.__getitem__", "pgmax/infer/bp_state.py:Evidence.__setitem__"]}
{"id": "C23", "title": "Evidence of a wrong shape is rejected", "statement": "Evidence for a variable group that does not give a value to every state of every variable is rejected, never written to the wrong variables.", "quantifier": "every graph, every group, every data accepted by the group's flatten", "why_tests_cant": "needs all mixtures of per-variable shapes.", "anchors": ["pgmax/infer/bp_state.py:update_evidence", "pgmax/vgroup/vdict.py:VarDict.flatten", "pgmax/vgroup/varray.py:NDVarArray.flatten"]}
{"id": "C24", "title": "Spreading beliefs over messages preserves their total", "statement": "After setting the factor-to-variable messages of a variable to `data`, the messages from its k connected edges sum to `data` state by state, each is data/k, messages to all other variables are unchanged, and for an unconnected variable nothing changes.", "quantifier": "every compiled graph, every variable, every data, every prior message array", "why_tests_cant": "all degrees and layouts.", "anchors": ["pgmax/infer/bp_state.py:update_ftov_msgs", "pgmax/infer/bp_state.py:FToVMessages.__setitem__"]}
{"id": "C25", "title": "Updates of disjoint targets commute", "statement": "The result of updating log potentials of several groups, evidence of several disjoint variables/groups, or messages of several variables does not depend on the order in which the entries of the update dictionary are processed.", "quantifier": "every graph, every dictionary with pairwise disjoint targets, every permutation", "why_tests_cant": "JAX re-sorts dictionary arguments by key, keys being object ids: the order is nondeterministic across runs.", "anchors": ["pgmax/infer/bp_state.py:update_log_potentials", "pgmax/infer/bp_state.py:update_evidence", "pgmax/infer/bp_state.py:update_ftov_msgs"]}
{"id": "C26", "title": "Variable-to-factor messages", "statement": "The variable-to-factor message on an edge is, state by state, the variable's evidence plus the sum of the factor-to-variable messages on all other edges of the same variable.", "quantifier": "every compiled graph, every message and evidence array, every edge and state", "why_tests_cant": "all graphs and real-valued arrays.", "anchors": ["pgmax/infer/bp.py:pass_var_to_fac_messages"]}
{"id": "C27", "title": "Enumeration factor messages, max-product", "statement": "At temperature 0 the message of an enumeration factor to its i-th variable in state s is the maximum over the listed configurations c with c[i]=s of log potential(c) plus the incoming messages of the other variables at c; states allowed by no configuration get the -1e5 floor.", "quantifier": "every compiled graph, factor, configuration table, log potentials and incoming messages", "why_tests_cant": "all tables and real-valued inputs.", "anchors": ["pgmax/factor/enum.py:pass_enum_fac_to_var_messages"]}
{"id": "C28", "title": "Enumeration factor messages, sum-product", "statement": "At temperature T>0 the message of an enumeration factor to its i-th variable in a state s that occurs in the table is T*log of the sum over the configurations c with c[i]=s of exp((log potential(c) + other incoming messages)/T) (up to the exp(-1e5) regulariser).", "quantifier": "every compiled graph, factor, table, log potentials, incoming messages and T>0", "why_tests_cant": "all tables and real-valued inputs.", "anchors": ["pgmax/factor/enum.py:pass_enum_fac_to_var_messages"]}
{"id": "C29", "title": "OR/AND factor messages equal enumeration, max-product", "statement": "At temperature 0 the messages of an OR (AND) factor with any number of parents are, up to a per-message constant, the max-product messages of the factor that enumerates all 2^n configurations with child = OR (AND) of the parents.", "quantifier": "every number of parents, all real incoming messages", "why_tests_cant": "exponentially many configurations, real-valued inputs and ties; tests use at most five random parents.", "anchors": ["pgmax/factor/logical.py:pass_logical_fac_to_var_messages", "pgmax/factor/logical.py:get_maxes_and_argmaxes"]}
{"id": "C30", "title": "OR/AND factor messages equal enumeration, sum-product", "statement": "At temperature T>0 the messages of an OR (AND) factor with any number of parents are, up to a per-message constant, the sum-product messages at temperature T of the factor that enumerates all configurations with child = OR (AND) of the parents.", "quantifier": "every number of parents, all real incoming messages, every T>0", "why_tests_cant": "exponentially many configurations and real-valued inputs.", "anchors": ["pgmax/factor/logical.py:pass_logical_fac_to_var_messages"]}
{"id": "C31", "title": "Normalised messages lie in [-1000, 0] with maximum 0", "statement": "After normalisation (hence after run_bp for any number of iterations) every factor-to-variable message has maximum exactly 0, all its values lie in [-1000,0], and differences between states are those before normalisation unless clipped.", "quantifier": "every message array and every segmentation into edges, of every size", "why_tests_cant": "all sizes, in particular very large graphs.", "anchors": ["pgmax/infer/bp.py:normalize_and_clip_msgs", "pgmax/infer/bp_utils.py:segment_max_opt"]}
{"id": "C32", "title": "Belief propagation can be resumed", "statement": "Running n iterations and then m iterations gives the same arrays as running n+m iterations; in particular normalisation at the start of a run does not change already normalised messages.", "quantifier": "every graph, all arrays, all n and m, every damping and temperature", "why_tests_cant": "all iteration counts.", "anchors": ["pgmax/infer/bp.py:BP", "pgmax/infer/bp.py:normalize_and_clip_msgs"]}
{"id": "C33", "title": "run_bp only changes messages", "statement": "run_bp returns the log potentials and evidence it was given, and a message array of the same length; with damping 1 the messages are only normalised.", "quantifier": "every graph, arrays, iteration count, damping, temperature", "why_tests_cant": "all iteration counts and graphs.", "anchors": ["pgmax/infer/bp.py:BP", "pgmax/infer/bp.py:normalize_and_clip_msgs"]}
{"id": "C34", "title": "Beliefs are evidence plus incoming messages, per variable", "statement": "The belief of a variable in a state is its evidence plus the sum of all factor-to-variable messages arriving at it, and it is reported under the variable's own group and name/index.", "quantifier": "every graph, all arrays, all variables and states", "why_tests_cant": "all graphs, group orders and mixed state counts.", "anchors": ["pgmax/infer/bp.py:BP", "pgmax/infer/bp.py:normalize_and_clip_msgs"]}
{"id": "C35", "title": "Decoded states are valid and optimal", "statement": "decode_map_states returns for every variable a state index smaller than its number of states with maximal belief, the smallest such index on ties, with one entry per variable; padding entries are never selected.", "quantifier": "every graph, every belief array, every mixture of state counts", "why_tests_cant": "all mixtures of state counts and ties.", "anchors": ["pgmax/infer/bp.py:decode_map_states", "pgmax/vgroup/varray.py:NDVarArray.unflatten", "pgmax/vgroup/vdict.py:VarDict.unflatten"]}
{"id": "C36", "title": "Marginals are probability distributions", "statement": "get_marginals returns for every variable non-negative numbers that sum to 1 over its states, give probability 0 to padding entries, are ordered like the beliefs, and do not change when a constant is added to the variable's beliefs.", "quantifier": "every variable, all real beliefs, all padded sizes", "why_tests_cant": "real-valued inputs.", "anchors": ["pgmax/infer/bp.py:get_marginals"]}
{"id": "C37", "title": "run_bp computes textbook loopy belief propagation", "statement": "For every graph of valid factors, run_bp with n iterations and damping d computes n synchronous steps of the textbook equations (variable-to-factor sums, max over the joint configurations of each factor, damping, per-message normalisation to maximum 0, clipping at -1000), whatever the factor types, the grouping and the memory layout.", "quantifier": "every graph of valid factors, all arrays, all n, all d", "why_tests_cant": "unbounded graphs and iteration counts.", "anchors": ["pgmax/infer/bp.py:BP", "pgmax/fgraph/fgraph.py:FactorGraph", "pgmax/factor/enum.py:pass_enum_fac_to_var_messages", "pgmax/factor/logical.py:pass_logical_fac_to_var_messages"]}
{"id": "C38", "title": "Belief propagation is exact on trees", "statement": "On a tree-structured factor graph, with damping 0 and as long as no clipping occurs, after as many iterations as the height of the tree the beliefs of a variable equal, up to a constant, its exact max-marginals, so that decoding a variable with a unique maximiser returns its value in the MAP assignment.", "quantifier": "every tree-structured graph, all potentials and evidence", "why_tests_cant": "unbounded trees, exponentially many assignments.", "anchors": ["pgmax/infer/bp.py:BP", "pgmax/infer/bp.py:decode_map_states"]}
{"id": "C39", "title": "Constants in evidence do not matter", "statement": "Adding a constant to the evidence of all states of a variable changes neither the messages after any number of iterations nor the decoded states nor the marginals.", "quantifier": "every graph, all arrays, iteration counts, constants", "why_tests_cant": "all graphs and iteration counts.", "anchors": ["pgmax/infer/bp.py:BP", "pgmax/infer/bp.py:normalize_and_clip_msgs"]}
{"id": "C40", "title": "Constants in log potentials do not matter", "statement": "Adding a constant to all log potentials of a factor changes neither the messages nor the beliefs after any number of iterations.", "quantifier": "every graph of enumeration factors, all arrays, iteration counts, constants", "why_tests_cant": "all graphs and iteration counts.", "anchors": ["pgmax/infer/bp.py:BP", "pgmax/factor/enum.py:pass_enum_fac_to_var_messages"]}
{"id": "C41", "title": "The order in which factors are added does not matter", "statement": "Adding the same factor groups in a different order yields the same beliefs after any number of iterations.", "quantifier": "every graph, every permutation of its factor groups, all arrays, iteration counts", "why_tests_cant": "all graphs, permutations, iteration counts.", "anchors": ["pgmax/fgraph/fgraph.py:FactorGraph.add_factors", "pgmax/infer/bp.py:BP"]}
{"id": "C42", "title": "Fixed points do not depend on damping", "statement": "If a normalised message array is a fixed point of the undamped update (and no value is clipped), it is a fixed point of the damped update for every damping, and conversely for damping different from 1.", "quantifier": "every graph, all arrays, all dampings", "why_tests_cant": "real-valued inputs.", "anchors": ["pgmax/infer/bp.py:BP", "pgmax/infer/bp.py:normalize_and_clip_msgs"]}
{"id": "C43", "title": "BP state, arrays and reconstruction agree", "statement": "bp.init() returns the arrays of the BP state, to_bp_state(init()) describes the same arrays, arrays of wrong sizes are rejected, and a BPState mixing parts of different graphs is rejected.", "quantifier": "every graph and all arrays", "why_tests_cant": "all graphs.", "anchors": ["pgmax/infer/bp_state.py:BPState", "pgmax/infer/bp_state.py:LogPotentials", "pgmax/infer/bp_state.py:FToVMessages", "pgmax/infer/bp_state.py:Evidence", "pgmax/infer/bp.py:BP"]}
{"id": "C44", "title": "Factors can be retrieved by their set of variables", "statement": "group[variables] returns the factor connected to that set of variables in whatever order the variables are listed, with its own log potentials, and raises for any other set.", "quantifier": "every group without repeated scopes, every variable collection", "why_tests_cant": "all groups and permutations.", "anchors": ["pgmax/fgroup/fgroup.py:FactorGroup.__getitem__", "pgmax/fgroup/enum.py:EnumFactorGroup._get_variables_to_factors"]}
{"id": "C45", "title": "AND is the dual of OR", "statement": "The messages of an AND factor are those of an OR factor with the two states of every variable exchanged, at every temperature.", "quantifier": "every number of parents, all messages, temperatures", "why_tests_cant": "real-valued inputs.", "anchors": ["pgmax/factor/logical.py:pass_logical_fac_to_var_messages", "pgmax/factor/logical.py:LogicalFactor.compile_wiring"]}
{"id": "C46", "title": "Disconnected parts do not influence each other", "statement": "If two parts of a graph share no factor, the messages and beliefs of one part after any number of iterations do not depend on the evidence, log potentials or initial messages of the other.", "quantifier": "every graph, every union of connected components, all arrays, iteration counts", "why_tests_cant": "all graphs and iteration counts; off-by-one wiring bugs would leak silently.", "anchors": ["pgmax/infer/bp.py:BP", "pgmax/fgraph/fgraph.py:FactorGraph"]}
{"id": "C47", "title": "Uninitialised memory never reaches a compiled graph", "statement": "Arrays allocated with np.empty during compilation are completely overwritten: whatever the memory contained, compiling a graph gives the same wiring or the same exception.", "quantifier": "every graph, valid or not, and all memory contents", "why_tests_cant": "memory contents vary from run to run; tests see mostly zeros.", "anchors": ["pgmax/factor/factor.py:_compile_var_states_numba", "pgmax/factor/enum.py:_compile_enumeration_wiring_numba", "pgmax/factor/logical.py:_compile_logical_wiring_numba"]}
{"id": "C48", "title": "Beliefs stay within a known distance of the evidence", "statement": "After any number of iterations at any temperature and damping, from any messages, the belief of a variable in a state lies between its evidence minus 1000 per factor of the variable and its evidence.", "quantifier": "every graph, all arrays, temperatures, damping, iteration counts", "why_tests_cant": "all graphs and real inputs.", "anchors": ["pgmax/infer/bp.py:BP", "pgmax/infer/bp.py:normalize_and_clip_msgs"]}
{"id": "C49", "title": "How factors are described does not matter", "statement": "Two graphs with the same factors, grouped differently and with the configurations listed in another order, over whatever variable groups, have the same messages and beliefs after any number of iterations.", "quantifier": "every pair of graphs with the same factors, all arrays, temperatures, damping, iteration counts", "why_tests_cant": "all regroupings and permutations of configurations.", "anchors": ["pgmax/factor/enum.py:EnumFactor.compile_wiring", "pgmax/factor/enum.py:pass_enum_fac_to_var_messages", "pgmax/fgroup/enum.py:EnumFactorGroup", "pgmax/infer/bp.py:BP"]}
{"id": "C50", "title": "Other variable groups and their order do not matter", "statement": "Permuting the variable groups of a graph or adding variable groups that no factor uses changes no message and no belief of the other variables.", "quantifier": "every graph, all lists of variable groups that contain its variables, all arrays, temperatures, damping, iteration counts", "why_tests_cant": "all graphs; index arithmetic over all groups.", "anchors": ["pgmax/fgraph/fgraph.py:FactorGraph", "pgmax/infer/bp.py:BP"]}
{"id": "C51", "title": "Belief propagation can be set up for every graph that compiles", "statement": "BP(bp_state, temperature) succeeds for the state of every factor graph that compiles.", "quantifier": "every graph", "why_tests_cant": "includes degenerate graphs.", "anchors": ["pgmax/infer/bp.py:BP", "pgmax/infer/bp.py:normalize_and_clip_msgs"]}
{"id": "C52", "title": "Nested lists of factors are added one by one", "statement": "add_factors of nested lists adds the contained factors and groups in order up to the first that is rejected, which has the same variables as an earlier factor of its type.", "quantifier": "every graph, every nested list", "why_tests_cant": "all nestings and orders.", "anchors": ["pgmax/fgraph/fgraph.py:FactorGraph.add_factors"]}
{"id": "C53", "title": "Belief propagation converges on trees", "statement": "On an acyclic factor graph, at temperature 0 and without damping, the messages are the same after any number of iterations that is at least the number of factors, whatever the initial messages were.", "quantifier": "every acyclic graph, all arrays, initial messages and iteration counts", "why_tests_cant": "all trees and real inputs.", "anchors": ["pgmax/infer/bp.py:BP", "pgmax/factor/enum.py:pass_enum_fac_to_var_messages"]}
{"id": "C54", "title": "Positive temperatures give textbook sum-product", "statement": "At every temperature T > 0 the messages of run_bp on any graph equal those of textbook sum-product belief propagation from the same initial messages, up to the effect of the regulariser exp(-1e5), which is bounded by T*exp(-1e5)*sum (2L)^k over the iterations, where L is the largest number of messages a factor-to-variable message depends on; without enumeration factors exactly.", "quantifier": "every graph, all arrays, temperatures > 0, damping in [0,1], iteration counts", "why_tests_cant": "real-valued inputs, all graphs, unbounded iterations.", "anchors": ["pgmax/infer/bp.py:BP", "pgmax/factor/enum.py:pass_enum_fac_to_var_messages", "pgmax/factor/logical.py:pass_logical_fac_to_var_messages"]}
{"id": "C55", "title": "Sum-product is exact on trees", "statement": "On an acyclic factor graph, without damping, after as many iterations as there are factors, beliefs at temperature T > 0 are T times the log of the total weight of the assignments with each state, up to a constant, and get_marginals at temperature 1 reports the exact marginal probabilities (up to exp(-1e5) per enumeration factor).", "quantifier": "every acyclic graph, all arrays, temperatures > 0, iteration counts at least the number of factors", "why_tests_cant": "needs sums over exponentially many assignments on all trees.", "anchors": ["pgmax/infer/bp.py:BP", "pgmax/infer/bp.py:get_marginals", "pgmax/factor/enum.py:pass_enum_fac_to_var_messages", "pgmax/factor/logical.py:pass_logical_fac_to_var_messages"]}
{"id": "C56", "title": "Messages of complete tables are bounded by the range of their potentials", "statement": "If an enumeration factor lists every configuration once and its log potentials differ by at most R, its messages after n iterations with damping d are at least -(R + d^n (1000 - R)); hence on trees of such factors with R < 1000 no message is clipped, and MAP states and marginals are exact.", "quantifier": "every graph, all arrays, temperatures, damping, iteration counts", "why_tests_cant": "real-valued inputs, all tables.", "anchors": ["pgmax/factor/enum.py:pass_enum_fac_to_var_messages", "pgmax/infer/bp.py:normalize_and_clip_msgs", "pgmax/infer/bp.py:BP"]}
{"id": "C57", "title": "The update equations for numbers of any size", "statement": "At every temperature, for all log potentials, evidence and initial messages, n damped iterations of run_bp compute n iterations of belief propagation in which the constant -1e5 replaces minus infinity in exactly these places: enumeration messages are floored at -1e5 before the incoming message is subtracted, the argmax of logical messages starts at -1e5, the maximum subtracted in the normalisation is at least -1e5 for variables with fewer states than another one, and at positive temperatures the sums of enumeration messages contain the regulariser exp(-1e5).", "quantifier": "every graph with at most 1e5 message entries (or any number if slices with a negative start are clamped) and at temperature 0 at most 1e5 logical parents, all arrays of numbers of any size, damping, temperatures >= 0, iteration counts", "why_tests_cant": "real-valued inputs of any size, all graphs, unbounded iterations.", "anchors": ["pgmax/infer/bp.py:BP", "pgmax/infer/bp.py:normalize_and_clip_msgs", "pgmax/factor/enum.py:pass_enum_fac_to_var_messages", "pgmax/factor/logical.py:pass_logical_fac_to_var_messages", "pgmax/infer/bp_utils.py:segment_max_opt"]}
{"id": "C58", "title": "Temperature 0 is the limit of small temperatures", "statement": "After any number of iterations, the messages and beliefs of run_bp at temperature T tend to those at temperature 0 as T tends to 0, with a distance of at most 2 T (100001 + R) sum (4L)^k for factors with at most R configurations and L incoming messages; for small T decode_map_states returns the state of maximal belief at temperature 0 wherever it is unique.", "quantifier": "every graph, all arrays, damping in [0,1], iteration counts, temperatures > 0", "why_tests_cant": "a limit over real temperatures; separate code paths for temperature 0 and positive temperatures.", "anchors": ["pgmax/infer/bp.py:BP", "pgmax/factor/enum.py:pass_enum_fac_to_var_messages", "pgmax/factor/logical.py:pass_logical_fac_to_var_messages", "pgmax/infer/bp.py:decode_map_states"]}
{"id": "C59", "title": "Damped belief propagation converges on trees", "statement": "On an acyclic factor graph, with any damping 0 <= d < 1 and from any initial messages, the messages and beliefs of run_bp converge as the number of iterations grows, to those that undamped belief propagation reaches after as many iterations as there are factors. Hence at temperature 0 decode_map_states eventually returns the MAP states, and at temperature 1 get_marginals converges to the exact marginal probabilities (up to exp(-1e5) per enumeration factor).", "quantifier": "every acyclic graph, all arrays, damping in [0,1), temperatures >= 0", "why_tests_cant": "a limit over unboundedly many iterations, on all trees and real-valued inputs.", "anchors": ["pgmax/infer/bp.py:BP", "pgmax/infer/bp.py:normalize_and_clip_msgs", "pgmax/infer/bp.py:decode_map_states", "pgmax/infer/bp.py:get_marginals"]}
{"id": "C60", "title": "Sum-product converges on graphs of weak factors and on loops", "statement": "At temperature T > 0, on a graph of complete tables with or without loops whose numbers are moderate (no score in a message reaches the constant -1e5), let the log potentials of factor f differ by at most R_f. If (1 - exp(-2 R_f/T)/(1+exp(-1e5))) times the number of messages that the factor's message depends on is at most k < 1 for every message, then there are messages L such that with any damping 0 <= d < 1 and from any initial messages the messages of run_bp after n iterations are within 2000 (d + (1-d) k)^n of L, run_bp from L returns L, and beliefs and marginals converge. If every message depends on at most one other (single loops), such a k exists for all log potentials. At temperature 0 this is false.", "quantifier": "every graph of complete tables under the stated condition, all arrays, damping in [0,1), temperatures > 0, iteration counts", "why_tests_cant": "a limit over unboundedly many iterations on graphs with loops, real-valued inputs, all initial messages.", "anchors": ["pgmax/infer/bp.py:BP", "pgmax/infer/bp.py:normalize_and_clip_msgs", "pgmax/factor/enum.py:pass_enum_fac_to_var_messages", "pgmax/infer/bp.py:get_marginals"]}
{"id": "C61", "title": "FactorGraph.factors lists the factors that inference uses, and is never stale", "statement": "For a graph of valid factor groups, FactorGraph.factors returns without raising, whether or not the graph compiles; it has one entry per factor type with the factors of that type, and together the factors have, in order, the variables, valid configurations and log potentials of the factors that inference on the compiled graph uses. Whatever has been called before on this or any other graph of the process, the memoised properties factors, log_potentials and wiring return what computing them afresh would.", "quantifier": "every history of add_factors calls with valid groups; every sequence of calls on any number of graphs (hashes and ids without collisions)", "why_tests_cant": "depends on call histories and on caches shared by all graphs of a process; the factor objects and the compiled arrays are built by separate code.", "anchors": ["pgmax/fgraph/fgraph.py:FactorGraph.factors", "pgmax/fgroup/fgroup.py:FactorGroup.factors", "pgmax/fgroup/enum.py:EnumFactorGroup._get_variables_to_factors", "pgmax/fgraph/fgraph.py:FactorGraph.log_potentials"]}
{"id": "C62", "title": "The last write wins", "statement": "After any sequence of item assignments to the log potentials, messages and evidence of a BP state, in any order and including assignments that raised, every factor group's log potentials, every edge's message and every variable's evidence read as the last allowed assignment concerning them says, or as before if there was none; array sizes and the graph state stay. An assignment raises iff it is not allowed (unknown group or variable, data of a wrong size) and then changes nothing. bp.update with update dictionaries gives the same as the assignments one by one, or raises if one of them is not allowed. (Assumed: evidence for a group gives all states a value, and evidence of length 1 is not given for variables of several states, cf. C23.)", "quantifier": "every compiled graph, every sequence of assignments, all arrays and update dictionaries", "why_tests_cant": "needs arbitrary interleavings of valid and invalid writes to overlapping targets of three arrays.", "anchors": ["pgmax/infer/bp_state.py:LogPotentials.__setitem__", "pgmax/infer/bp_state.py:FToVMessages.__setitem__", "pgmax/infer/bp_state.py:Evidence.__setitem__", "pgmax/infer/bp.py:BP"]}
{"id": "C63", "title": "Evidence that is stronger than all factors decides, on graphs with loops too", "statement": "Let the evidence of one state of every variable exceed that of its other states by more than the sum over its factors f of R_f + 1000 d^N, where f is a complete table whose log potentials differ by at most R_f, or any factor if R_f >= 1000. For moderate numbers, at any temperature >= 0, with damping d and from any initial messages, decode_map_states returns these states after every number n >= N of iterations, loops or not. If all factors are complete tables, they are the unique MAP assignment, and at temperature 0 the message to a variable after N + k iterations is within 2000 d^k of the normalised log potentials of the factor with all other variables in these states.", "quantifier": "every graph under the stated condition, all arrays, damping in [0,1], temperatures >= 0, iteration counts", "why_tests_cant": "all graphs with loops, initial messages and iteration counts at once; the condition is an inequality between real numbers.", "anchors": ["pgmax/infer/bp.py:BP", "pgmax/infer/bp.py:decode_map_states", "pgmax/factor/enum.py:pass_enum_fac_to_var_messages", "pgmax/factor/logical.py:pass_logical_fac_to_var_messages", "pgmax/infer/bp_utils.py:segment_max_opt"]}
{"id": "C64", "title": "When max-product has come to rest, no change on a part with at most one loop improves the decoded states", "statement": "On any graph of factors of any type, with loops or without, at temperature 0, with damping d < 1 and moderate numbers: if an iteration of run_bp does not change the messages, every variable has one state of largest belief and the messages to these states are not clipped, then decode_map_states returns these states, they satisfy all factors, and no joint assignment that differs from them on variables that have, together with their factors, at most one loop in each connected component, has a larger score. In particular no change of one variable helps, and if the whole graph has at most one loop in each component, they are a MAP assignment. On graphs with more loops they need not be.", "quantifier": "every graph, all arrays for which messages come to rest, damping in [0,1)", "why_tests_cant": "quantifies over all graphs with loops and all subsets of variables; optimality against exponentially many assignments.", "anchors": ["pgmax/infer/bp.py:BP", "pgmax/infer/bp.py:decode_map_states", "pgmax/factor/enum.py:pass_enum_fac_to_var_messages", "pgmax/factor/logical.py:pass_logical_fac_to_var_messages"]}
{"id": "C65", "title": "Small changes of the inputs and rounding errors have small effects", "statement": "Let the log potentials and evidence of two runs differ by at most eps in every entry and their initial messages by at most delta. After n iterations their messages differ by at most (4L)^n 2 delta + 4 A eps (1 + 4L + ... + (4L)^(n-1)), where at most L messages come into the variables of a factor and factors have fewer than A variables; beliefs differ by at most eps plus that for every edge, and decode_map_states returns the same state wherever the beliefs differ by more than twice that. If the initial normalisation and every iteration are computed with an error of at most eta in every entry, the messages after n iterations are within eta (1 + 4L + ... + (4L)^n) of the exact ones. At positive temperatures this holds for all numbers.", "quantifier": "every graph with loops and logical factors, all arrays and perturbations, temperature, damping in [0,1], iteration count, sequences of rounding errors", "why_tests_cant": "all inputs and all perturbations; a test cannot bound the effect of rounding errors that it does not produce.", "anchors": ["pgmax/infer/bp.py:BP", "pgmax/infer/bp.py:get_marginals", "pgmax/infer/bp_utils.py:normalize_and_clip_msgs", "pgmax/factor/enum.py:pass_enum_fac_to_var_messages", "pgmax/factor/logical.py:pass_logical_fac_to_var_messages"]}
{"id": "C66", "title": "On graphs of weak factors errors do not accumulate", "statement": "Let T > 0, all factors be complete tables and k < 1 the factor by which one undamped iteration contracts messages (for every edge, the number of messages that go into the factor's message times 1 - exp(-2R/T)/(1+exp(-1e5)), where log potentials of the factor differ by at most R). With damping 0 <= d < 1 and moderate numbers: if every iteration is computed with an error of at most eta per entry and results stay in [-1000,0], messages stay within 2 eta/((1-d)(1-k)) of those of run_bp for all n, and within 2000 (d+(1-d)k)^n more than that of its limit. If log potentials and evidence of another run differ by at most eps and initial messages by delta, the messages differ by at most 4 delta (d+(1-d)k)^n + 8 A eps/((1-d)(1-k)) for factors of fewer than A variables, so that limits are Lipschitz in the inputs.", "quantifier": "every graph of weak factors with or without loops, all arrays, errors, damping in [0,1), iteration counts", "why_tests_cant": "all iteration counts and all sequences of rounding errors; a test cannot show that errors stay bounded forever.", "anchors": ["pgmax/infer/bp.py:BP", "pgmax/infer/bp.py:get_marginals", "pgmax/infer/bp_utils.py:normalize_and_clip_msgs", "pgmax/factor/enum.py:pass_enum_fac_to_var_messages"]}
{"id": "C67", "title": "The Ising program builds the Ising model on a torus, for exactly the sizes at which this is possible", "statement": "examples/ising_model.py with m by n variables instead of 50 by 50 and coupling J builds its graph without exception exactly if 1 <= m, n, mn <= 10^9, no side is 2 and not m = n = 1; otherwise it stops with ValueError. When it succeeds, the graph compiles, BP can be set up, every variable occurs at exactly four places in factors, and every assignment of states is a joint assignment whose score is the evidence plus J times the product of spins over every cell and its neighbours below and to the right, cyclically.", "quantifier": "all sizes m, n, all couplings, all assignments and evidence", "why_tests_cant": "all sizes of the grid; the duplicates that make sizes 1 and 2 special are not met by the size of the program.", "anchors": ["examples/ising_model.py", "pgmax/fgroup/enum.py:PairwiseFactorGroup", "pgmax/fgraph/fgraph.py:FactorGraph.add_factors", "pgmax/vgroup/varray.py:NDVarArray.__getitem__"]}
{"id": "C68", "title": "The binary deconvolution program builds a graph whose joint assignments are exactly the binary convolutions", "statement": "examples/pmp_binary_deconvolution.py with any number of images, channels and features and any sizes builds its graph without exception exactly if there is at least one of everything, features are not larger than images, and the auxiliary array has at most 10^9 variables; otherwise it stops with ValueError. When it succeeds, the graph compiles, BP can be set up, and an assignment of states is a joint assignment exactly if the auxiliary variables of all placements are the conjunctions of their S and W variables and every pixel of X is on iff some feature is placed such that one of its pixels that are on falls there. Its score is the evidence.", "quantifier": "all numbers and sizes of images and features, all assignments and evidence", "why_tests_cant": "all sizes, all assignments of exponentially many; the program is run for one size.", "anchors": ["examples/pmp_binary_deconvolution.py", "pgmax/fgroup/logical.py:LogicalFactorGroup", "pgmax/fgraph/fgraph.py:FactorGraph.add_factors", "pgmax/vgroup/varray.py:NDVarArray.__getitem__"]}
{"id": "C69", "title": "The RBM program builds the restricted Boltzmann machine, and its factor-by-factor alternative is equivalent", "statement": "examples/rbm.py with parameters bh, bv and W of any sizes builds its graph without exception exactly if there are between 1 and 10^9 hidden and visible variables and W has one entry for every pair (in any shape); otherwise it stops with ValueError. When it succeeds, the graph compiles, BP can be set up, and every assignment of states is a joint assignment whose score is the evidence plus the sums of bh_i h_i, bv_j v_j and h_i W_ij v_j. If W has the shape (hidden, visible), the alternative in the program's notes, which adds factors one by one, succeeds too and gives a graph with the same log potentials on which run_bp gives the same messages and beliefs.", "quantifier": "all numbers of hidden and visible variables, all parameters, assignments, evidence and arrays", "why_tests_cant": "all sizes and parameters, all of the exponentially many assignments.", "anchors": ["examples/rbm.py", "pgmax/fgroup/enum.py:EnumFactorGroup", "pgmax/fgroup/enum.py:PairwiseFactorGroup", "pgmax/fgraph/fgraph.py:FactorGraph.add_factors", "pgmax/factor/enum.py:EnumFactor"]}
{"id": "C70", "title": "The GMRF program builds a field of pixels with eight neighbours, and init sets its potentials and evidence", "statement": "examples/gmrf.py with M by N images and K states builds its graph without exception exactly if M, N >= 2 and MN <= 10^9; otherwise it stops with ValueError. When it succeeds and K >= 1, the graph compiles, BP can be set up, and bp.init with evidence for the array of variables and a K by K matrix for each of the four groups, in any order, succeeds. With the resulting arrays every assignment of states is a joint assignment whose score is the evidence of all pixels plus the entries of the matrices for all vertical, horizontal and diagonal pairs of neighbours.", "quantifier": "all image sizes, numbers of states, matrices, evidence, assignments, orders of the update dictionary", "why_tests_cant": "all sizes, all matrices; the program is run for one size and one set of matrices.", "anchors": ["examples/gmrf.py", "pgmax/fgroup/enum.py:PairwiseFactorGroup", "pgmax/infer/bp.py:BP", "pgmax/infer/bp_state.py:update_log_potentials", "pgmax/infer/bp_state.py:update_evidence", "pgmax/fgraph/fgraph.py:FactorGraph.add_factors"]}
{"id": "C71", "title": "The RCN program builds graphs whose joint assignments keep the ends of every edge within its radius", "statement": "examples/rcn.py with networks of any sizes, any lists of edges (i1, i2, r) and any window of (2 hps + 1) by (2 vps + 1) displacements builds its graph without exception exactly if there is a list of edges for every network, networks have at most 10^9 variables, edges are between variables of their network with r below 22, and no two edges of a network are between the same variables; a missing list gives AssertionError, a network that is too large or, with edges as required otherwise, a repeated edge ValueError. When it succeeds, the graph compiles, BP can be set up exactly if there is an edge, and an assignment of states is a joint assignment exactly if every state is a displacement in the window and the displacements of the ends of every edge differ by at most r in both directions. Its score is the evidence.", "quantifier": "all numbers and sizes of networks, edges, window sizes, assignments and evidence", "why_tests_cant": "all sizes, edges and windows; the program is run on one data set.", "anchors": ["examples/rcn.py", "pgmax/fgroup/enum.py:EnumFactorGroup", "pgmax/fgraph/fgraph.py:FactorGraph.add_factors", "pgmax/vgroup/varray.py:NDVarArray.__getitem__"]}
{"id": "C72", "title": "Belief propagation respects isomorphisms of factor graphs", "statement": "If two graphs are the same up to the numbers of factors, the positions of variables in factors, the names of variables, the numbers of states (with OR and AND exchanged where the states of their variables are), and the order of configurations, then run_bp from corresponding evidence, log potentials and messages gives corresponding messages and beliefs. In particular the beliefs of a symmetric graph with symmetric evidence are symmetric.", "quantifier": "all pairs of compiled graphs and renamings, all evidence, potentials, messages, numbers of iterations, dampings and temperatures", "why_tests_cant": "all renamings of all graphs; a difference may show only for one order of parents and extreme evidence.", "anchors": ["pgmax/infer/bp.py:BP", "pgmax/infer/bp_utils.py:normalize_and_clip_msgs", "pgmax/factor/enum.py:pass_enum_fac_to_var_messages", "pgmax/factor/logical.py:pass_logical_fac_to_var_messages"]}
{"id": "C73", "title": "Beliefs of the Ising program respect the symmetries of the torus and of the spins", "statement": "On the graph of examples/ising_model.py with m by n variables, moving the evidence by a symmetry of the torus (any injective map of cells that maps neighbours to neighbours, such as translations, reflections, and transposition of a square) and possibly exchanging the two states of all variables moves the beliefs of run_bp from zero messages in the same way. So with the same evidence at all cells all cells have the same beliefs, and if the evidence prefers no spin then no belief does.", "quantifier": "all sizes for which the program builds its graph (up to 12499 cells if dynamic_slice wraps negative indices), couplings, evidence, symmetries, iterations, dampings, temperatures", "why_tests_cant": "all sizes, all symmetries, all evidence and numbers of iterations.", "anchors": ["examples/ising_model.py", "pgmax/infer/bp.py:BP", "pgmax/infer/bp_utils.py:normalize_and_clip_msgs", "pgmax/factor/enum.py:pass_enum_fac_to_var_messages"]}
{"id": "C74", "title": "bp.init accepts the evidence of the deconvolution program, and scores are priors, noise and reconstruction errors", "statement": "In examples/pmp_binary_deconvolution.py, whenever the graph is built, bp.init accepts the evidence of every sample, in every order of the dictionary, although SW is given an array without an axis for the states. The initial messages are zero, the evidence of SW is zero, and the score of every joint assignment is the noise at the states of S and W, plus logit(pS) for every variable of S that is on, logit(pW) for every variable of W that is on, and logit(pX) for every pixel where X differs from the binary image, minus a constant. In general an array of the shape of SW sets the first half of the states of SW only.", "quantifier": "all sizes for which the program builds its graph, priors, noise, binary images, joint assignments, orders of the dictionary", "why_tests_cant": "all sizes and images; the wrong shape has no effect only because the values are zero.", "anchors": ["examples/pmp_binary_deconvolution.py", "pgmax/infer/bp_state.py:update_evidence", "pgmax/vgroup/varray.py:NDVarArray.flatten", "pgmax/infer/bp.py:BP"]}
{"id": "C75", "title": "The evidence of the RCN program is read from the windows, and scores are sums of bottom-up messages at the drawn positions", "statement": "In examples/rcn.py, get_evidence returns for variable v with frc[v] = (f, r, c) and state s the entry of bu_msg in channel f at the pixel displaced by s within the window around (r, c), if all windows lie inside the image; for images larger than the windows it succeeds exactly then and stops with ValueError otherwise, while for smaller images NumPy can silently broadcast one pixel. Whenever the graph is built and every network has a feature, bp.init accepts the evidence in every order of the dictionary; the score of every joint assignment is the sum over the networks of the program's score for the states of the network, and that score is the sum of bu_msg at the positions that the program draws, which lie inside the image.", "quantifier": "all window sizes, images, positions, networks, edges, states of variables, orders of the dictionary", "why_tests_cant": "all networks and images; the silent broadcast needs an image smaller than the window.", "anchors": ["examples/rcn.py", "pgmax/infer/bp_state.py:update_evidence", "pgmax/vgroup/varray.py:NDVarArray.flatten", "pgmax/infer/bp.py:BP"]}
{"id": "C76", "title": "On trees, messages are bounded by the ranges of the evidence and potentials behind them, so nothing is clipped if these are small", "statement": "On an acyclic factor graph, let the evidence values of variable v differ by at most E(v) and the log potentials of factor f by at most P(f), and let every state of every variable of an enumeration factor occur in a configuration. Then after any number of iterations, with any damping, the entries of the message from f to v differ by at most the total of E and P over the variables and factors behind the message (connected with f and closer to f than to v), if the initial messages do; at temperature T > 0, T(log N + exp(-1e5)) is added for every factor with N configurations. Hence if these totals are below 1000, no message is clipped, and max-product beliefs from zero messages are exact max-marginals, decode_map_states returns the MAP states, and get_marginals at temperature 1 returns the exact probabilities (up to the factor of C55).", "quantifier": "all acyclic graphs with the three kinds of factors, potentials, evidence, damping, temperatures, numbers of iterations", "why_tests_cant": "all trees; conditions only on the inputs, not on the computed messages.", "anchors": ["pgmax/infer/bp.py:BP", "pgmax/infer/bp.py:normalize_and_clip_msgs"]}
{"id": "C77", "title": "On networks that are trees, the RCN program returns the best deformations and predicts the network with the best score", "statement": "In examples/rcn.py, let every network be a tree, all features lie inside the image, and the bottom-up messages be of moderate size (for the program's values -1 and 1: networks of fewer than 500 features and at most 47 edges per feature). Then with damping 0 after as many iterations as the longest path in any network, and with any damping up to the default 1/2 after sufficiently many iterations, the program runs without exception; for every network with only one best feasible deformation, decode_map_states returns that deformation and its score is the sum of bottom-up messages at the displaced positions; if all networks have only one, the program predicts the first network with the largest best score.", "quantifier": "all images, numbers of networks, trees, radii, windows, dampings in [0, 1/2], numbers of iterations that are large enough", "why_tests_cant": "all inputs of the whole program; exactness of the answer is relative to the best of exponentially many deformations.", "anchors": ["examples/rcn.py", "pgmax/infer/bp.py:BP", "pgmax/infer/bp.py:decode_map_states"]}
{"id": "C78", "title": "On trees, damped belief propagation approaches its limit at least as fast as a binomial tail", "statement": "On an acyclic factor graph with zero initial messages (evidence and log potentials of moderate size), the message of factor f to variable v after n iterations with damping d differs from the message that undamped belief propagation reaches by values in an interval that contains 0 and has length at most B * lag(d, n, k), where B is the total of the ranges of the evidence and log potentials behind the message (C76), k is the largest number of factors on a path behind the message and lag(d, n, k) is the probability that fewer than k of n independent trials succeed if one fails with probability d. Likewise for the beliefs of a variable, with the total over the factors and the other variables that are connected with it. Hence explicit numbers of iterations after which decode_map_states returns the MAP state of a variable (if other states are worse by more than the bound) and get_marginals the probabilities up to a given factor.", "quantifier": "all acyclic factor graphs, evidence and log potentials of moderate size, dampings in [0, 1], numbers of iterations, temperatures", "why_tests_cant": "a bound for all trees, numbers of iterations and dampings.", "anchors": ["pgmax/infer/bp.py:BP", "pgmax/infer/bp_utils.py:segment_max_opt", "pgmax/infer/bp.py:decode_map_states", "pgmax/infer/bp.py:get_marginals"]}
{"id": "C79", "title": "On networks that are small trees, the 30 damped iterations of the RCN program suffice", "statement": "Let all networks of the RCN program be trees without paths of more than K edges, and let the differences of the bottom-up messages be multiples of g and at most R. If (m - 1) * R * lag(d, n, K) < g for the number m of features of every network, where lag(d, n, K) is the probability that fewer than K of n trials succeed if one fails with probability d, then after n iterations with damping d the program returns the best deformation of every network that has only one, with its score, and predicts the right network. In particular with messages -1 and 1, 30 iterations and damping 1/2, as in the program, this holds for trees with at most 47 features and paths of at most 10 edges.", "quantifier": "all lists of networks that are trees, all bottom-up messages whose differences are multiples of a number, all numbers of iterations and dampings up to 1/2", "why_tests_cant": "a bound for all trees, images, dampings and numbers of iterations.", "anchors": ["examples/rcn.py", "pgmax/infer/bp.py:BP", "pgmax/infer/bp.py:decode_map_states"]}
{"id": "C80", "title": "The bottom-up messages of the RCN program mark the oriented edges of an image", "statement": "Given the responses of the filters, get_bu_msg of the RCN program returns an array of messages -1 and 1 with one image per channel. The message of channel i at a pixel is 1 if and only if channel i or one of the two channels next to it in the cyclic order detects an edge there: its response is at least the threshold, at least the responses of all other channels at this pixel, and at least its responses at all pixels that the suppression mask of the channel covers when it is centred on the pixel, with pixels outside of the image moved to the border. The function returns if and only if there is a channel and all masks that are used have two axes and a true entry. With a larger threshold no pixel becomes active.", "quantifier": "all images, numbers of channels, masks and positive thresholds", "why_tests_cant": "all images and masks of all sizes; the border, ties and the cyclic neighbours of the first and last channel are easily wrong.", "anchors": ["examples/rcn.py"]}
{"id": "C81", "title": "The RCN program classifies every test image by the network with the best deformation", "statement": "The RCN program, which makes the graph once and then treats all test images in a loop, returns for every image what inference on this image alone returns: the decoded states and scores for the bottom-up messages of the image; it predicts the label of the network with the largest score, and the accuracy is the share of right predictions (NaN if there are no images). For networks that are trees with at most 47 features and without paths of more than 10 edges, and the parameters of the program (windows of 25 by 25 pixels, 30 iterations, damping 1/2), the program does not fail; the states of every network with only one best deformation are this deformation, and if all networks have only one, the prediction is the label of the first network with the best score.", "quantifier": "all lists of test images and labels, networks, masks, thresholds", "why_tests_cant": "the whole program for all models and images.", "anchors": ["examples/rcn.py", "pgmax/infer/bp.py:BP", "pgmax/infer/bp.py:decode_map_states"]}
{"id": "C82", "title": "Messages give bounds for the best score, and certify decoded states, on graphs with loops", "statement": "For any messages, at any temperature: give to every edge a share of the belief of its variable, such that the shares of no variable exceed 1. Reweight the factors: from the log potential of a configuration subtract the messages that the factor sends to its states, and add the shares of their beliefs. Then no joint assignment has a larger score than the largest beliefs (times what is left of the shares) and the largest reweighted values of all factors together. If the decoded states satisfy all factors and their configurations have the largest reweighted values, up to an error per factor, then their score is the best up to the sum of the errors; without errors they are a MAP assignment.", "quantifier": "all graphs with or without loops, all types of factors, log potentials, evidence, messages, shares, temperatures, competing assignments", "why_tests_cant": "the best score is over exponentially many assignments; the statement is for all messages, also those that have not converged.", "anchors": ["pgmax/infer/bp.py:BP", "pgmax/infer/bp.py:decode_map_states"]}
{"id": "C83", "title": "When sum-product has come to rest, the marginals of variables and factors agree", "statement": "At temperature T > 0 and for moderate numbers, if the message of a factor to one of its variables is not clipped and changes by at most η in an iteration with damping d, then the distribution of the variable's states by its belief, and by the factor (its configurations weighted by exp of log potential and incoming messages), differ at most by factors exp(±(2η/((1-d)T) + exp(-1e5))), without the second term for logical factors. At temperature 1 the former are the marginals that get_marginals reports. So at rest the reported marginals satisfy the inequalities of logical factors: the child of an OR is on with at least the probability of every parent and at most the sum of their probabilities; dually for AND.", "quantifier": "all graphs with or without loops, all types of factors, temperatures, dampings, moderate log potentials and evidence, initial messages, iterations", "why_tests_cant": "real-valued messages; a statement about all messages close to rest, not about one graph.", "anchors": ["pgmax/infer/bp.py:BP", "pgmax/infer/bp.py:get_marginals", "pgmax/factor/logical.py:pass_logical_fac_to_var_messages"]}
{"id": "C84", "title": "Terms of single variables may be in the factors or in the evidence", "statement": "If terms that depend on the state of a single variable are moved from the log potentials of factors to the evidence of the variable, then all joint assignments keep their scores, and belief propagation, started from messages that differ by the terms, sends messages that still differ by the terms (up to constants), gives beliefs that differ by a constant for each variable, the same decoded states and, above temperature 0, the same marginals, after any number of iterations. Consequently a factor whose log potentials are a sum of such terms sends exactly these, mixed with its initial messages by the damping: constant factors send nothing and factors of one variable act as evidence, whatever the rest of the graph.", "quantifier": "all graphs with or without loops, log potentials, evidence, terms, temperatures, dampings, initial messages, iterations", "why_tests_cant": "relates two runs on different inputs for all terms; no test compares a model with its reparametrisation.", "anchors": ["pgmax/infer/bp.py:BP", "pgmax/infer/bp_utils.py:update_vtof_msgs", "pgmax/infer/bp_utils.py:normalize_and_clip_msgs", "pgmax/factor/enum.py:pass_enum_fac_to_var_messages"]}
{"id": "C85", "title": "The GMRF program's marginals are distributions, its loss is the cross entropy, and its predictions are the most probable classes", "statement": "For images of at least 2 by 2 pixels, matrices of the right sizes and three classes with at least one clone each, the GMRF program sets up inference without errors, computes for every noisy image a distribution without zeros on the states of every pixel, and its loss is finite, not negative and the mean over the pixels of minus the logarithm of the probability of the right class; the loss of a batch is the mean of the losses. Predicted is the most probable class, and the loss bounds the number of wrong pixels. If the matrices prefer no pair of states, the marginals of a pixel are the normalised probabilities of its observation.", "quantifier": "all image sizes, images, labels, matrices, clone numbers, contour probabilities, batches", "why_tests_cant": "the example programs are run by no test; the prediction is only right for particular numbers of clones, which sampled data would not vary.", "anchors": ["examples/gmrf.py", "pgmax/infer/bp.py:get_marginals", "pgmax/infer/bp.py:BP"]}
{"id": "C86", "title": "The GMRF program runs textbook sum-product on the field of pixels", "statement": "For images of at least 2 by 2 pixels, with matrices and log observation probabilities of size at most 1000, the marginals that the GMRF program computes are those after exactly 15 undamped iterations of textbook sum-product, from zero messages, on the field of pixels: the first matrix between vertical neighbours, the second between horizontal neighbours, the third and fourth on the two diagonals, and the log probabilities of the observations as evidence. The relative error is less than about 1e18 * exp(-1e5).", "quantifier": "all image sizes, images, matrices of moderate numbers, clone numbers, contour probabilities", "why_tests_cant": "no test runs the example programs; wrong neighbours, exchanged matrices or states, or another number of iterations would still give plausible marginals.", "anchors": ["examples/gmrf.py", "pgmax/infer/bp.py:BP", "pgmax/infer/bp.py:get_marginals"]}
{"id": "C87", "title": "Batches of beliefs are decoded sample by sample", "statement": "jax.vmap of get_beliefs, followed by decode_map_states or get_marginals of the batch as the programs do it, gives for every sample the decoded states or marginals of this sample, for arrays and dictionaries, if every array of beliefs has an axis for the states; exceptions are raised exactly if they are for single samples.", "quantifier": "all graphs, variable groups, batches of any size and samples", "why_tests_cant": "tests decode single samples; a reduction over a fixed axis instead of the last one would go unnoticed until a batch is decoded.", "anchors": ["pgmax/infer/bp.py:decode_map_states", "pgmax/infer/bp.py:get_marginals", "pgmax/infer/bp.py:BP", "examples/rbm.py", "examples/pmp_binary_deconvolution.py"]}
{"id": "C88", "title": "The RBM program decodes the signs of the log odds of max-product", "statement": "The RBM program builds its graph and BP functions without an exception, and the states it decodes for a sample, for the MAP state without noise, and for every sample of a batch are those of a direct iteration on numbers: one log odds per direction and connection, to which a unit with log odds a and weight w contributes max(0, w + a) - max(0, a), with 100 iterations of damping 1/2 in which the biases come in damped, too; a unit is on exactly if its log odds are positive. In a batch, sample k only uses its own rows of the arrays of noise.", "quantifier": "all machines with at least one hidden and one visible unit, biases, weights and noise within bounds that keep the constants of the code out of the way, all batch sizes", "why_tests_cant": "the program is a notebook without assertions, and its pictures cannot be compared with an independent computation.", "anchors": ["examples/rbm.py", "pgmax/infer/bp.py:BP", "pgmax/infer/bp.py:decode_map_states"]}
{"id": "C89", "title": "The RBM program's marginals are those of sum-product on log odds", "statement": "The sum-product part of the RBM program returns, for every hidden and visible unit, the probabilities of its two states; they differ by at most exp(-90000) from the probabilities whose log odds are given by a direct iteration on numbers, in which a unit with log odds a and weight w contributes log((1 + exp(w + a)) / (1 + exp(a))), after 100 iterations of damping 1/2.", "quantifier": "all machines with at least one hidden and one visible unit and at most 10^9 of each, biases and weights within bounds that keep the constants of the code out of the way", "why_tests_cant": "the marginals of the notebook are not compared with anything, and floating-point comparisons could not bound the effect of the constant -1e5 below rounding errors.", "anchors": ["examples/rbm.py", "pgmax/infer/bp.py:BP", "pgmax/infer/bp.py:get_marginals"]}
{"id": "C90", "title": "The Ising program decodes and scores max-product on a torus", "statement": "Inference in the Ising program: the image decoded after any number of iterations with damping 1/2 has a cell on exactly if its log odds are positive in a direct iteration of four numbers per cell (one message per neighbour); the loss (minus the sum of all beliefs) is the sum of the absolute values of these messages minus the sum of the evidence, for the program's potentials and for any 2 by 2 table given for the factor group; the batched loss is the loss of each image of the batch; reading and writing single and all entries of the evidence gives back what was set.", "quantifier": "all numbers of rows and columns for which the graph exists (C67), couplings and table entries up to 500, evidence up to 45000, all numbers of iterations, all batches", "why_tests_cant": "the program only shows an image and numbers for one random torus of one size; that every message is the intended one can not be seen in them, least of all for other sizes and iterations.", "anchors": ["examples/ising_model.py", "pgmax/infer/bp.py:BP"]}
{"id": "C91", "title": "More evidence for a state never turns it off in the Ising program", "statement": "For couplings that are not negative, the image of the Ising program is monotone in the log odds of the evidence, at every iteration; evidence for state 1 only keeps these cells on, evidence for state 0 only gives the empty image; for any coupling J, a cell with evidence of more than 8 |J| for a state is decoded to this state, whatever the evidence of the others.", "quantifier": "all sizes, couplings, pairs of evidence arrays and numbers of iterations within the bounds of C90", "why_tests_cant": "a statement about pairs of inputs, for infinitely many pairs; a wrong neighbour or sign of a message in one row of the torus breaks it only for some of them.", "anchors": ["examples/ising_model.py", "pgmax/infer/bp.py:BP"]}
{"id": "C92", "title": "Symmetries of the Ising program", "statement": "The image of the Ising program is symmetric: exchanging the evidence for the two states exchanges them in the image (except at cells with log odds exactly zero, where both images have state 0), shifting the evidence along the torus shifts the image, exchanging rows and columns of torus and evidence transposes the image, and on tori with even sides the coupling -J with the evidence exchanged on the black cells of a checkerboard gives the image with the black cells exchanged.", "quantifier": "all sizes, couplings, evidence arrays, shifts and numbers of iterations within the bounds of C90", "why_tests_cant": "statements about pairs of runs; the code's order of factors, its tables and the wrap-around at the borders could break them for some sizes, shifts or iterations only.", "anchors": ["examples/ising_model.py", "pgmax/infer/bp.py:BP"]}
{"id": "C93", "title": "Belief propagation is monotone in attractive models", "statement": "Take two models on the same graph: log potentials, evidence and initial messages. If the second favours higher states more than the first (for any two configurations c, c' of a factor, the first table at the smaller and the second table at the larger states together are at least the first table at c plus the second at c'; evidence and initial messages rise more from state to state), then after any number of iterations all messages and beliefs of the second model rise more from state to state than those of the first, and no variable is decoded to a lower state. In particular, in a model with log-supermodular tables, more evidence for the higher states of one variable never lowers the decoded state of another.", "quantifier": "all compiled graphs of all factor types, pairs of models, numbers of states, iterations and dampings, temperature 0 exactly and temperature above 0 up to the error of C54", "why_tests_cant": "a statement about pairs of inputs for models of any size; sampled pairs cannot show that no iteration, variable or table ever breaks it.", "anchors": ["pgmax/infer/bp.py:BP", "pgmax/factor/enum.py:pass_enum_fac_to_var_messages"]}
{"id": "C94", "title": "Samples of the RBM program: monotone, local bounds, exchange of the groups", "statement": "Samples of the RBM program (the units decoded by max-product with noise as evidence): with weights that are not negative, larger biases, weights and noise never turn a unit off, and the marginals of the sum-product part do not decrease (up to the error of C89); in any machine, a unit whose bias and noise favour a state by more than the sum of the absolute values of its weights is decoded to this state; exchanging hidden and visible units (biases, noise, transposed weights) exchanges the two arrays of states.", "quantifier": "all numbers of hidden and visible units, biases, weights and noise within the bounds of C88; pairs of machines and of noise arrays", "why_tests_cant": "statements about pairs of runs with real-valued parameters; the program draws ten random samples of one trained machine, with weights of both signs.", "anchors": ["examples/rbm.py", "pgmax/infer/bp.py:BP"]}
{"id": "C95", "title": "Inference of the deconvolution program is max-product on log odds of images, places and features", "statement": "For every size for which the deconvolution program builds its graph, the program makes its BP object without an exception; and for all priors, noise and images, the arrays decoded by infer.decode_map_states after 100 iterations with damping 0.5 are the signs of the log odds of a recursion that knows only coordinates (a feature pixel at a position of an image, pixels of images, pixels of features): the conjunction at a place sends bumps to S and W, the disjunction at a pixel sends its log odds to the places that cover it. In a batch, sample k is decoded from block k of the noise. The condition is that no conjunction hears log odds of 100000 or more; a bound on the evidence that implies it is proved.", "quantifier": "all sizes (images, channels, heights, widths, features), priors, noise arrays, images and numbers of samples, under the stated condition on the log odds", "why_tests_cant": "the program runs once on one data set with random noise and its result is looked at; the statement links wiring, damping, clipping and decoding to formulas for all inputs.", "anchors": ["examples/pmp_binary_deconvolution.py", "pgmax/infer/bp.py:BP"]}
{"id": "C96", "title": "Symmetries of the deconvolution program", "statement": "Listing images, channels or features in another order (in the noise and the images) gives the same decoded arrays in this order; mirroring images and noise top to bottom or left to right mirrors the decoded features, positions and images. If two features get the same noise, the decoded arrays do not tell them apart: the features are equal and are put at the same positions, so the noise is what makes features different (the comment in the program about equivalent modes).", "quantifier": "all sizes, priors, noise arrays, images, new orders and both mirrorings, under the conditions of C95", "why_tests_cant": "statements about pairs of runs on related data; the program runs on one data set.", "anchors": ["examples/pmp_binary_deconvolution.py", "pgmax/infer/bp.py:BP"]}
{"id": "C97", "title": "plot_images shows every image, in the right place and with the right brightness", "statement": "plot_images returns an array of the size of all images with lines between them. Each pixel of each image is shown at its place (image number im in row im / columns and column im % columns), its grey level is the number scaled from the smallest (0) to the largest (less than 1) number of all images, and larger numbers are brighter. Lines between rows are purple, those between columns and places without image are black. Without a number of rows the grid is the smallest square; a given number of rows must be positive and divide the number of images, else the function raises, as for empty arrays, arrays without three axes and integer NumPy arrays. In the last picture of the deconvolution program row k shows exactly the features decoded in sample k.", "quantifier": "all sizes and images, all numbers of rows; the last part for all sizes, priors, noise arrays and images under the conditions of C95", "why_tests_cant": "the picture is only looked at, for one data set; no test calls the function.", "anchors": ["examples/pmp_binary_deconvolution.py"]}
{"id": "C98", "title": "OR and AND factors may be replaced by the enumeration factors that list their configurations", "statement": "Two graphs whose factors have the same variables and configurations, up to names, numbers, order and constants, where a factor may be an OR or AND factor in one graph and be listed in an enumeration factor in the other: from corresponding messages and evidence, all messages and beliefs correspond after any number of iterations at any damping, exactly at temperature 0 and up to multiples of exp(-1e5) at positive temperatures.", "quantifier": "all graphs with any mixture of factor types, all arrays of moderate size, all numbers of iterations and dampings, all temperatures", "why_tests_cant": "tests/factor/test_or.py and test_and.py compare such pairs of graphs for ten random seeds each, in which no variable belongs to two factors and five iterations are run.", "anchors": ["pgmax/infer/bp.py", "pgmax/factor/enum.py", "pgmax/factor/logical.py"]}
{"id": "C99", "title": "After n iterations beliefs depend only on what is within n steps, and cannot tell a graph from its unwrapped copies", "statement": "After n iterations at any temperature and damping, the messages to a variable and its beliefs depend only on the evidence, factors and initial messages within n steps of it: if they are the same as around another variable, of this or another graph, so are the beliefs. From zero messages the factors of the variables at distance n do not matter. A graph every variable of which has the surroundings of its image in another graph (such as a cycle of six variables and one of three) has the beliefs of the images, for any number of iterations.", "quantifier": "all pairs of compiled graphs and maps between them, all arrays, all numbers of iterations, dampings and temperatures, numbers of any size", "why_tests_cant": "A test would have to compare runs on graphs of different sizes; the tests run one graph at a time, and check nothing about which inputs a result depends on.", "anchors": ["pgmax/infer/bp.py", "pgmax/factor/enum.py", "pgmax/factor/logical.py", "pgmax/infer/bp_utils.py"]}
{"id": "C100", "title": "On graphs with loops, n undamped iterations from zero messages compute the exact marginals of the graph unwrapped into a tree", "statement": "Without damping and from zero messages, if no message is clipped at -1000, the beliefs of a variable after n iterations are (up to a constant) its exact max-marginals at temperature 0, and T times the logarithms of its exact sum-marginals at temperature T > 0, in the tree that has the walks of at most n steps from the variable (never straight back) as variables. If the root of that tree has the same state in all best assignments, it is the state that is decoded; at temperature 1 get_marginals reports the probabilities of the roots. For complete tables with log potentials less than 1000 apart no message is clipped.", "quantifier": "all compiled graphs with any loops and factors of all types, all log potentials and evidence of moderate size, all numbers of iterations, all variables", "why_tests_cant": "The tree grows with the number of iterations and is never built by the code; on graphs with loops the tests can only compare with stored results.", "anchors": ["pgmax/infer/bp.py", "pgmax/factor/enum.py", "pgmax/factor/logical.py", "pgmax/infer/bp_utils.py"]}
{"id": "C101", "title": "The cut-labelling program of the tests builds the model of plain depth images", "statement": "For depth images of any size, any suppression diameter, any depths and any noise, the program of test_e2e_sanity_check runs exactly if the diameter is less than both sides of the image (else ValueError). The joint assignments of its graph are exactly the labellings of cuts in which, wherever four cuts meet, there is no cut, or a line goes straight through and at most one other ends there, or a line turns, and in which parallel cuts less than the diameter apart are not both labelled. Its table of 29 configurations holds exactly the labels of four depths of which two neighbours are equal and never lie strictly between the other two. Evidence lands on the variable of its cut, in the array or the dictionary; up to a constant a labelling scores twice its agreements with the image plus its noise; if the image is plain and the noise below 1, the labels of the image are the unique best assignment. run_bp does textbook max-product from zero messages.", "quantifier": "all image sizes, diameters, depth images and noise; all numbers of iterations and damping up to one half for diameters up to 8", "why_tests_cant": "The test runs one 3 by 3 image with one seed and compares with stored messages.", "anchors": ["tests/test_pgmax.py"]}
{"id": "C102", "title": "States that the evidence and all factors agree on are decoded, on graphs with loops too", "statement": "Let x be a configuration of every factor with the largest log potential of that factor, and a state of every variable with its largest evidence. At temperature 0, for moderate numbers, from zero messages (or any that favour x), after any number of iterations with any damping, on every graph, loops or not: the belief of a variable in its state in x exceeds that in any other state by at least as much as its evidence does, and if that is positive for every variable decode_map_states returns x, which is the unique best assignment. So the cut-labelling program decodes the labels of every plain image with noise below 1.", "quantifier": "all compiled graphs with factors of all types, all log potentials and evidence of moderate size, all numbers of iterations, all damping in [0, 1]", "why_tests_cant": "Tests on loopy graphs compare with stored results of single runs.", "anchors": ["pgmax/infer/bp.py", "pgmax/factor/enum.py", "pgmax/factor/logical.py", "tests/test_pgmax.py"]}
{"id": "C103", "title": "The patch program of the tests builds its model and reports distributions", "statement": "For images of any size and any numbers of states, potentials and evidence, the program of test_e2e_heretic builds its graph exactly if there is a patch of 3 by 3 pixels (else ValueError). The graph has nine factors for every patch; any states are a joint assignment, which scores its evidence plus, over all patches and positions, W_pot[hidden state, pixel state, position]. After any number of iterations at any temperature get_marginals returns, for every pixel and hidden variable, positive numbers that add up to 1. At positive temperature beliefs are within 9 T e^-100000 (1 + 16 + ... + 16^(n-1)) of textbook sum-product. If every potential is a term for the hidden state plus a term for the pixel's state, marginals are those of the evidence plus (1 - d^n) times the terms of all patches that contain the pixel; with the zero potentials and evidence of the test they are uniform.", "quantifier": "all image sizes, numbers of states, potentials, evidence, temperatures, numbers of iterations and damping", "why_tests_cant": "The test runs one image size with zero potentials and zero evidence for one iteration, and only checks that the numbers add up to 1.", "anchors": ["tests/test_pgmax.py", "pgmax/infer/bp.py", "pgmax/fgroup/enum.py"]}
{"id": "C104", "title": "Models of independent variables are solved exactly, on graphs with loops too", "statement": "If every factor has all configurations and its log potential is a constant plus one term for each of its variables (terms of a variable differing by at most 1000), then on every graph, loops or not, after n iterations with damping d at any temperature the belief of a variable is, up to a constant, its evidence plus (1 - d^n) times the terms of all its factors plus d^n times its initial messages. So without damping one iteration is enough: decode_map_states returns a best assignment, and get_marginals the exact marginals of the model, in which the variables are independent.", "quantifier": "all compiled graphs with such log potentials and evidence of moderate size, all initial messages, all numbers of iterations, all damping, all temperatures", "why_tests_cant": "Tests on loopy graphs compare with stored results of single runs.", "anchors": ["pgmax/infer/bp.py", "pgmax/infer/bp_utils.py", "pgmax/factor/enum.py"]}
{"id": "C105", "title": "The beliefs of belief propagation rewrite the model, and at rest they are stationary points of the Bethe free energy", "statement": "For every graph with factors of any type, all log potentials, evidence, messages and temperatures T > 0: the weight of every joint assignment is, up to one common constant, the product of the probabilities of its states by the distributions of all factors (proportional to exp of log potential and incoming messages over T) and of all variables (by their beliefs; at T = 1 the reported marginals), divided by a variable's probability once per edge. At these distributions the Bethe free energy has derivative 0 in every direction that keeps totals and marginals consistent. If moderate messages are not clipped and change by at most eta in an iteration, the distributions of factors have those of variables as marginals up to a factor exp(+-restGap); if they do not change and there are only logical factors, the distributions are exactly consistent, and their Bethe free energy is -T times the logarithm of the common constant.", "quantifier": "all compiled graphs, log potentials, evidence, messages and temperatures; at rest: all moderate inputs, all damping below 1, all numbers of iterations", "why_tests_cant": "Tests compare final numbers on single inputs; they do not relate the beliefs to the model on graphs with loops.", "anchors": ["pgmax/infer/bp.py", "pgmax/infer/bp_utils.py", "pgmax/infer/inferer.py", "pgmax/factor/logical.py", "pgmax/factor/enum.py"]}
{"id": "C106", "title": "On trees the messages of sum-product belief propagation give the partition function", "statement": "On every acyclic factor graph with factors of any type, at any temperature T > 0: if no message is clipped, after as many undamped iterations as there are factors, the logarithm of the sum of the weights of all joint assignments is the sum over factors of the logarithm of the total weight of their configurations with incoming messages, minus the sum over variables of (number of edges - 1) times the logarithm of the total of exp(belief / T), with an error of at most e^-100000 per enumeration factor. With damping, the same holds up to the sum of restGap once messages change by at most eta. For complete tables with log potentials that differ by less than 1000 no message is clipped.", "quantifier": "all acyclic compiled graphs, log potentials and evidence of moderate size, initial messages, temperatures T > 0, numbers of iterations from the number of factors on", "why_tests_cant": "Tests do not compute the partition function at all.", "anchors": ["pgmax/infer/bp.py", "pgmax/infer/bp_utils.py"]}
{"id": "C107", "title": "On trees the distributions of factors are the joint distributions of their variables", "statement": "On every acyclic factor graph with factors of any type, at any temperature T > 0: if no message is clipped, after as many undamped iterations as there are factors, the distribution of the configurations of a factor (proportional to exp of log potential and incoming messages over T) is the exact joint distribution of its variables in the model: the total weight of the joint assignments with given states on the factor's variables over the partition function, up to a factor of exp(+-2 k e^-100000) for k enumeration factors. With damping, the same holds with twice the sum of restGap once messages change by at most eta.", "quantifier": "all acyclic compiled graphs, log potentials and evidence of moderate size, initial messages, temperatures T > 0, numbers of iterations from the number of factors on, all factors and all states of their variables", "why_tests_cant": "Tests compare marginals of single variables on one random model; joint distributions are not tested.", "anchors": ["pgmax/infer/bp.py", "pgmax/infer/bp_utils.py", "pgmax/factor/enum.py", "pgmax/factor/logical.py"]}
{"id": "C108", "title": "The unit in which scores are measured does not matter", "statement": "Multiplying log potentials, evidence, initial messages and the temperature by c > 0 multiplies all messages and beliefs, after any number of iterations with any damping, by c, and leaves the decoded states the same, at temperature 0 and at positive temperatures. With c = 1/T this reduces every temperature T to temperature 1.", "quantifier": "all compiled graphs with factors of all types, log potentials and evidence of moderate size, initial messages, temperatures, dampings, c > 0, numbers of iterations up to which no message is clipped at -1000 in either unit", "why_tests_cant": "Tests never run the same model in two units; the constants -1000, -1e5 in the code are in the unit of scores, and tests stay far from them.", "anchors": ["pgmax/infer/bp.py", "pgmax/infer/bp_utils.py", "pgmax/factor/enum.py", "pgmax/factor/logical.py"]}
{"id": "C109", "title": "In attractive models of binary variables the runs from the extreme messages converge and bracket every run", "statement": "In a model of binary variables whose tables are attractive, on any graph, max-product belief propagation started from the lowest messages raises the messages with every iteration, and from the highest lowers them; messages of all other runs stay between. Both runs converge to messages at rest, between which all messages at rest lie, and if the limits are the same every run converges to them. Decoded states of the lowest run never fall, those of the highest never rise, and once both decode the same state for a variable every run does, from then on. The messages of sum-product behave in the same way.", "quantifier": "all compiled graphs (loops included) of attractive factors on binary variables in which all states occur, log potentials and evidence of moderate size, initial messages, dampings, numbers of iterations", "why_tests_cant": "Convergence on graphs with loops is a statement about infinitely many iterations, and the bracket one about all initial messages; tests run fixed numbers of iterations from zero messages.", "anchors": ["pgmax/infer/bp.py", "pgmax/infer/bp_utils.py", "pgmax/factor/enum.py"]}
{"id": "C110", "title": "In attractive models of binary variables the lowest and the highest run bracket a best joint assignment", "statement": "In a model of binary variables whose tables are attractive, on any graph, decode max-product belief propagation started from the lowest messages and from the highest, after any numbers of iterations. No decoded state of the lowest run is higher than the state of the variable in any best joint assignment, and there is a best joint assignment of which no state is higher than the decoded state of the highest run. So if the two runs decode the same states, these are a best joint assignment: the runs give a certificate of optimality on graphs with loops, without convergence.", "quantifier": "all compiled graphs (loops included) of attractive complete tables with ranges up to 1000 on binary variables, log potentials and evidence of moderate size, dampings, numbers of iterations of the two runs, best joint assignments", "why_tests_cant": "The decoded states are compared with the best of exponentially many joint assignments, for all attractive tables and all graphs; tests know the best assignment of a few small models only.", "anchors": ["pgmax/infer/bp.py", "pgmax/infer/bp_utils.py", "pgmax/factor/enum.py"]}
{"id": "C111", "title": "On rings of binary variables, sum-product decodes the more probable state of every variable", "statement": "Let the factors of a graph be complete tables that form a ring of binary variables, at any temperature T > 0. If messages are at rest, there is one number c between -1 and 1 such that the partition function is 1 + c times what the messages say it is, and the true probability of a state of any variable is proportional to its probability by the beliefs plus c times that of the other state. So the marginals are not exact, but the state with the larger belief is the more probable one, for every variable; for attractive tables c is not negative, so the messages underestimate the partition function and the beliefs are too confident. All runs of the code converge to such beliefs, and decode the more probable states after finitely many iterations, up to the inexactness of the code's treatment of minus infinity.", "quantifier": "all rings of n >= 1 binary variables with complete tables, temperatures T > 0, dampings 0 <= d < 1, initial messages, numbers of iterations; the log potentials and evidence moderate, the ranges of the tables below 1000", "why_tests_cant": "The claim compares beliefs with sums over all joint assignments of rings of every length; a test knows the true marginals of a few small rings only, where the reported marginals are wrong.", "anchors": ["pgmax/infer/bp.py", "pgmax/infer/bp_utils.py", "pgmax/factor/enum.py"]}
{"id": "C112", "title": "The programs that test OR and AND factors pass", "statement": "The programs in tests/factor/test_or.py and tests/factor/test_and.py build two graphs of the same gates, where each gate is a listed (enumerated) factor in one graph and a logical factor in the other, run belief propagation with the same evidence, and assert that the beliefs agree. With any number of gates, any numbers of parents, any ids of the objects, and any evidence of moderate size, both graphs are built and run without an exception. At temperature 0 the beliefs of the two graphs are equal after every number of iterations. At a temperature T > 0 they differ by at most 2 T e^-100000 (2^n - 1) after n iterations. So the assertions hold, in particular with the numbers of the programs.", "quantifier": "all numbers of factors >= 2 and parents >= 1, all evidence of at most E with K (E + 1000) <= 97000 for factors of fewer than K parents, all numbers of iterations, temperatures T >= 0, ids of objects, and contents of uninitialised memory; both programs; both ways to divide the factors", "why_tests_cant": "The test runs ten seeds, with at most 7 factors of at most 5 parents, and random evidence; the claim is for every graph and all evidence of a size that is stated, and says that the beliefs are equal, not only close.", "anchors": ["tests/factor/test_or.py", "tests/factor/test_and.py", "pgmax/fgroup/logical.py", "pgmax/factor/logical.py", "pgmax/factor/enum.py"]}
{"id": "C113", "title": "If factors share no variables, n damped iterations give the part 1 - d^n of the exact messages", "statement": "Let no variable be in two factors. After n >= 1 iterations with damping d from zero messages, the message of a factor to a variable is 1 - d^n times the message that the factor sends if it knows the evidence of its variables, with maximum 0, and clipped at -1000; states that occur in no configuration get -1000. At temperature 0 this message is the maximum over the configurations of the factor, at temperature T > 0 T times the logarithm of the sum, up to T e^-100000 (2^n - 1). So beliefs are within 1000 d^n of their limit, and the beliefs of variables in no factor are their evidence. In the test programs of OR and AND factors the belief of every parent and child of every gate is therefore its evidence plus 1 - 2^-n times the best total evidence of the other variables of its gate, in both graphs.", "quantifier": "all graphs of factors that share no variables, enumeration and logical, dampings 0 <= d <= 1, numbers of iterations, temperatures; numbers for which -1e5 acts as minus infinity (Moderate), within the sizes of Fits; for the programs all inputs as in C112", "why_tests_cant": "A formula for all numbers of iterations and all tables; a test compares a few runs with each other, but does not know what the beliefs should be.", "anchors": ["pgmax/infer/bp.py", "pgmax/infer/bp_utils.py", "tests/factor/test_or.py", "tests/factor/test_and.py"]}
{"id": "C114", "title": "Variables that a factor ties to the same state are decoded to the same, jointly best state exactly if the best joint states have the same evidence", "statement": "The program in tests/fgraph/test_fgraph.py (test_bp_different_num_states) makes a dictionary and an array of variables with given numbers of states, ties the i-th variables to each other by an enumeration factor of equal states, sets evidence by variable and by group, runs n iterations of max-product with damping 1/2 and asserts that the evidence is non-zero and that tied variables are decoded to the same state. It passes iff all evidence that belongs to states is non-zero and every tied pair has one first maximiser of both beliefs, where the belief of a variable is its evidence plus the part 1 - 2^-n of the other's (maximum 0, clipped at -1000); otherwise it raises AssertionError. If evidence is at most 500, a common decoded state is the first of the states with the largest total evidence, passing with n iterations implies passing with more, n iterations suffice if 1000/2^n is less than the gaps of total evidence, and the program passes for some n iff the evidence is non-zero and all best joint states of a pair have the same evidence. Non-zero evidence alone does not suffice: with (1, 2) and (2, 1) it fails for every n.", "quantifier": "all names, numbers of states (positive, not all 1), evidence of at most 49000 (500 for the second part), numbers of iterations including 0, object ids, garbage, environments within the size 2 sum + max <= 100000 or without wrapping of negative indices", "why_tests_cant": "The test draws one random evidence; that the assertion can fail, for which evidence, and that 50 iterations are enough only outside of near-ties, needs the formula of the beliefs for all evidence and all numbers of iterations.", "anchors": ["tests/fgraph/test_fgraph.py", "pgmax/infer/bp.py", "pgmax/infer/bp_state.py", "pgmax/vgroup/vdict.py", "pgmax/vgroup/varray.py"]}
{"id": "C115", "title": "Dictionaries of updates and beliefs are sorted by jit: what this changes", "statement": "update_log_potentials, update_ftov_msgs, update_evidence and get_beliefs are compiled with jax.jit, which rebuilds the dictionaries in their arguments and results in the order of the sorted keys (groups of factors by id, variables as tuples, groups of variables by hash, a group and a variable by the hashes of both, names by Python's <). (1) If the entries concern different targets and the names can be sorted, bp.update returns the same as the updates in the order of the dictionary. (2) If keys of a dictionary of evidence are compared as in a total order (for instance at most one key is a variable), the result does not depend on the order of the dictionary even if entries overlap, and a variable whose group is also in the dictionary gets the evidence of its own entry exactly if the hash of the group is smaller than that of the variable's tuple, else that of the group's entry. (3) get_beliefs returns the groups in the order of their hashes with the beliefs of every variable under its name if the names of every dictionary of variables can be sorted; if names of different kinds cannot be compared it returns exactly if every dictionary of variables has names of one kind, and otherwise always raises. So a dictionary is not processed in its order: with CPython's hashes the evidence of some variables is lost beside that of their array, even if listed last.", "quantifier": "every compiled graph, all update dictionaries in any order, every comparison of names, every hash of tuples (CPython's in the counterexample), all arrays", "why_tests_cant": "The hashes of groups are object ids times 10^9 and differ from run to run, so whether a variable's entry is lost is random; the tests never give evidence for a group and its variable in one dictionary, nor names of different types.", "anchors": ["pgmax/infer/bp_state.py:update_evidence", "pgmax/infer/bp_state.py:update_log_potentials", "pgmax/infer/bp_state.py:update_ftov_msgs", "pgmax/infer/bp.py:get_beliefs", "pgmax/vgroup/vgroup.py:VarGroup.__lt__", "pgmax/fgroup/fgroup.py:FactorGroup.__lt__"]}
{"id": "C116", "title": "Taking BPArrays and wirings apart and putting them together changes nothing, and vmap of a function of BPArrays is the function for every sample", "statement": "BPArrays and the wirings are registered with JAX, which takes them apart into the values of their fields in the order of the sorted names, and calls the class with new values. (1) For every function of arrays, tree_map of BPArrays applies it to each of the three arrays and returns the results in the same fields; with the identity (device_put, arguments and results of compiled functions) the object is the same. (2) The same for wirings of enumeration factors. (3) For wirings of logical factors the result is validated again: it is returned in the same fields exactly if it has as many different factor indices as children, all in range, and an offset of 1 or -1 (or no children), else ValueError. (4) The wirings of every graph that compiles are the same after being taken apart and put together. (5) vmap of a function of BPArrays returns, for every batch, the batch of the results of the samples; it raises if the function raises for a sample; what it accepts is a batch of BPArrays; so vmap of run_bp runs belief propagation for every sample.", "quantifier": "all BPArrays, wirings, functions of the parts, graphs, uninitialised memory, batches, functions of BPArrays", "why_tests_cant": "The names of the fields are sorted differently for every class, so a wrong order would exchange arrays of the same shape silently; the tests check only the class of the wirings of one graph after device_put.", "anchors": ["pgmax/infer/bp_state.py:BPArrays.tree_flatten", "pgmax/infer/bp_state.py:BPArrays.tree_unflatten", "pgmax/factor/factor.py:Wiring.tree_flatten", "pgmax/factor/factor.py:Wiring.tree_unflatten", "pgmax/factor/logical.py:LogicalWiring.__post_init__", "tests/test_pgmax.py:test_e2e_sanity_check"]}
{"id": "C117", "title": "Until it has gone around a loop, belief propagation is exact for the part of the graph it has seen", "statement": "On any compiled graph, with or without loops, let the ball of variable r be the factors that have a variable within n steps of r (a step goes to another variable of the same factor), and all variables within n + 1 steps. (0) The ball exists and is unique up to the order of its factors. (1) If the factors of the ball form a graph without cycles, then the beliefs of r after n + 1 iterations at temperature 0, without damping and from zero messages, are, up to a constant, the exact max-marginals of r in the model that has only the factors and variables of the ball. (2) If r has the same state in all best assignments of the ball, decode_map_states picks it. (3) It holds for complete tables whose log potentials differ by less than 1000. (4) At temperature T > 0 the beliefs are, up to a constant, T times the logarithms of the sum-marginals of the ball, up to T exp(-1e5) for every factor. (5) It holds for all variables if all cycles of the graph have more than 4 (n + 1) edges. (6) At temperature 1 get_marginals reports the probabilities of every variable in the model of its ball.", "quantifier": "all graphs, variables, numbers of iterations, log potentials, evidence, temperatures", "why_tests_cant": "The tests compare beliefs only with stored numbers; that few iterations on a loopy graph give exact answers for a local model, and which factors it contains, is a statement about all graphs and all numbers of iterations.", "anchors": ["pgmax/infer/bp.py", "pgmax/factor/enum.py", "pgmax/factor/logical.py", "pgmax/infer/bp_utils.py"]}
{"id": "C118", "title": "Variables that are decided by their evidence cut loops", "statement": "On any compiled graph of complete tables, where any two log potentials of factor f differ by at most R f < 1000, let D be a set of variables whose evidence for one state exceeds that for every other state by more than the sum of R f over their factors. (1) If the graph without the variables in D has no cycles, then at temperature 0, without damping, from zero messages and after as many iterations as there are factors, the beliefs of all other variables are, up to a constant, their exact max-marginals in the whole model, whatever loops go through D. (2) All best assignments give the variables in D the states that their evidence favours. (3) If the best assignment is unique, decode_map_states returns it.", "quantifier": "all graphs, sets of variables, log potentials, evidence, numbers of iterations", "why_tests_cant": "The tests run a few loopy models with random evidence and compare with stored numbers; that exactness depends only on the graph without the observed variables is a statement about all graphs and evidence.", "anchors": ["pgmax/infer/bp.py", "pgmax/factor/enum.py", "pgmax/infer/bp_utils.py"]}
