{
 "claims": [
  {
   "property": "C01",
   "status": "proved",
   "theorems": [
    "PGMax.C01_handles_distinct",
    "PGMax.C01_construction"
   ],
   "note": "All shapes, state counts, object ids; groups of at most 10^9 variables (enforced by the code for arrays only; see C02_dict_size_refuted for dictionaries)."
  },
  {
   "property": "C02",
   "status": "partial",
   "theorems": [
    "PGMax.C02_groups_distinct_partial",
    "PGMax.C02_window_partial",
    "PGMax.C02_equal_iff",
    "PGMax.C02_ordering_partial",
    "PGMax.C02_refuted",
    "PGMax.C02_dict_size_refuted"
   ],
   "note": "False as stated: groups whose id() agree modulo 2^32 compare equal and share handles (C02_refuted), and dictionaries of more than 10^9 names overlap the next group (C02_dict_size_refuted). Proved when the ids differ modulo 2^32."
  },
  {
   "property": "C03",
   "status": "proved",
   "theorems": [
    "PGMax.C03_getitem",
    "PGMax.C03_injective",
    "PGMax.C03_out_of_range",
    "PGMax.C03_zero_dim"
   ],
   "note": "All shapes and integer indices."
  },
  {
   "property": "C04",
   "status": "proved",
   "theorems": [
    "PGMax.C04_slices",
    "PGMax.C04_elements",
    "PGMax.C04_int_first_refuted"
   ],
   "note": "All index expressions of integers and positive-step slices. C04_int_first_refuted records an additional divergence (a leading integer with slices)."
  },
  {
   "property": "C05",
   "status": "partial",
   "theorems": [
    "PGMax.C05_round_trip_vars",
    "PGMax.C05_round_trip_states_partial",
    "PGMax.C05_refuted",
    "PGMax.C05_coincidence"
   ],
   "note": "Per-variable round trip proved in full; per-state round trip proved unless the flat lengths coincide; refuted when they do."
  },
  {
   "property": "C06",
   "status": "proved",
   "theorems": [
    "PGMax.C06_unflatten_accepts",
    "PGMax.C06_flatten_accepts",
    "PGMax.C06_round_trip"
   ],
   "note": ""
  },
  {
   "property": "C07",
   "status": "proved",
   "theorems": [
    "PGMax.C07_flatten_unflatten",
    "PGMax.C07_unflatten_flatten",
    "PGMax.C07_flatten_accepts",
    "PGMax.C07_unflatten_accepts",
    "PGMax.C07_getitem",
    "PGMax.C07_zero_states_refuted",
    "PGMax.C07_empty_refuted"
   ],
   "note": "For positive state counts and at least one name; C07_zero_states_refuted and C07_empty_refuted show that both are needed."
  },
  {
   "property": "C08",
   "status": "proved",
   "theorems": [
    "PGMax.C08_blocks_partition",
    "PGMax.C08_order"
   ],
   "note": "Any list of pairwise unequal constructed groups, any add_factors history."
  },
  {
   "property": "C09",
   "status": "proved",
   "theorems": [
    "PGMax.C09_no_duplicates",
    "PGMax.C09_accepts"
   ],
   "note": "Any history, nested lists and caught failures included."
  },
  {
   "property": "C10",
   "status": "partial",
   "theorems": [
    "PGMax.C10_rejected_add_partial",
    "PGMax.C10_single",
    "PGMax.C10_refuted",
    "PGMax.C10_list_not_atomic"
   ],
   "note": "False as stated (C10_refuted): scopes of the rejected group before the duplicate stay blocked. Proved: factors and variables unchanged, exact residue, same acceptance for all groups that avoid the residue; single factors leave the graph unchanged."
  },
  {
   "property": "C11",
   "status": "proved",
   "theorems": [
    "PGMax.C11_offsets_partition",
    "PGMax.C11_pots_block"
   ],
   "note": "Any reachable graph of non-empty groups whose object ids identify them."
  },
  {
   "property": "C12",
   "status": "partial",
   "theorems": [
    "PGMax.C12_partial",
    "PGMax.C12_exclusive_partial",
    "PGMax.C12_shared_partial",
    "PGMax.C12_refuted_attribute",
    "PGMax.C12_refuted_stale"
   ],
   "note": "False as stated: compute_offsets is memoised across graphs but works by assigning attributes, so a direct call on one graph makes fg_state of an equal graph raise AttributeError or describe old sizes. Proved for all interleavings on any number of graphs when no two graphs share their list of variable groups (anything else allowed), or when compute_offsets is not called directly and only compiling graphs are queried, or mixtures. Assumes hashes of id tuples and variable groups do not collide."
  },
  {
   "property": "C13",
   "status": "proved",
   "theorems": [
    "PGMax.C13_enum_wiring",
    "PGMax.C13_compiles",
    "PGMax.C13_edge_states"
   ],
   "note": "Every group whose scopes have the table's width, every start map, any contents of np.empty arrays."
  },
  {
   "property": "C14",
   "status": "partial",
   "theorems": [
    "PGMax.C14_enum",
    "PGMax.C14_enum_singles",
    "PGMax.C14_enum_split",
    "PGMax.C14_logical",
    "PGMax.C14_graph_partial",
    "PGMax.C14_refuted"
   ],
   "note": "Proved for enumeration groups (any regrouping) and for OR/AND factors forming all of their type (one group vs singles); for whole graphs when every OR/AND group but the last is a single factor. False otherwise (C14_refuted), because of the defect in C16."
  },
  {
   "property": "C15",
   "status": "proved",
   "theorems": [
    "PGMax.C15_logical_wiring"
   ],
   "note": ""
  },
  {
   "property": "C16",
   "status": "partial",
   "theorems": [
    "PGMax.C16_compiles_partial",
    "PGMax.C16_refuted",
    "PGMax.C16_empty_table_refuted"
   ],
   "note": "False as stated: LogicalFactor.concatenate_wirings shifts factor indices by the number of preceding wirings, so a valid graph compiles iff every OR/AND group but the last has one factor (proved as an iff)."
  },
  {
   "property": "C17",
   "status": "proved",
   "theorems": [
    "PGMax.C17_indices_in_bounds"
   ],
   "note": "Every compiled graph of valid groups over pairwise unequal variable groups."
  },
  {
   "property": "C18",
   "status": "partial",
   "theorems": [
    "PGMax.C18_enum_factor",
    "PGMax.C18_logical_factor",
    "PGMax.C18_group_partial",
    "PGMax.C18_logical_group_partial",
    "PGMax.C18_group_values_refuted",
    "PGMax.C18_group_width_refuted",
    "PGMax.C18_logical_group_refuted"
   ],
   "note": "Proved in full for single factors. False for groups: configuration values, individual scope widths and binary state counts are never checked on the path construction - add_factors - compile; what is checked is proved in the _partial theorems."
  },
  {
   "property": "C19",
   "status": "proved",
   "theorems": [
    "PGMax.C19_pairwise",
    "PGMax.C19_default",
    "PGMax.C19_update"
   ],
   "note": "Pairwise tables: entry (a,b) of factor f's log potential is the given log_potential_matrix entry, configurations in row-major order; defaults to zero; update via flatten."
  },
  {
   "property": "C20",
   "status": "partial",
   "theorems": [
    "PGMax.C20_enum",
    "PGMax.C20_pairwise_partial",
    "PGMax.C20_pairwise_refuted"
   ],
   "note": "flatten/unflatten round trip proved for EnumFactorGroup; for PairwiseFactorGroup proved except when the table shape is ambiguous; the ambiguous 2x2 single-factor case is refuted with a witness."
  },
  {
   "property": "C21",
   "status": "proved",
   "theorems": [
    "PGMax.C21_update",
    "PGMax.C21_unknown",
    "PGMax.C21_enum_rows"
   ],
   "note": ""
  },
  {
   "property": "C22",
   "status": "proved",
   "theorems": [
    "PGMax.C22_var",
    "PGMax.C22_group",
    "PGMax.C22_array",
    "PGMax.C22_dict",
    "PGMax.C22_unknown"
   ],
   "note": ""
  },
  {
   "property": "C23",
   "status": "partial",
   "theorems": [
    "PGMax.C23_partial",
    "PGMax.C23_array_refuted",
    "PGMax.C23_dict_refuted"
   ],
   "note": "The statement is false for the code: data with one value per variable is accepted by flatten and written to wrong states/variables of the group (both refutations). Proved: rejected shapes raise, and accepted data never leaves the group's own block when all variables have a state."
  },
  {
   "property": "C24",
   "status": "proved",
   "theorems": [
    "PGMax.C24_spread",
    "PGMax.C24_rejects"
   ],
   "note": ""
  },
  {
   "property": "C25",
   "status": "proved",
   "theorems": [
    "PGMax.C25_logPotentials",
    "PGMax.C25_evidence",
    "PGMax.C25_evidence_partial",
    "PGMax.C25_zero_states_refuted",
    "PGMax.C25_msgs"
   ],
   "note": "Evidence: for graphs whose variables all have at least one state; with zero-state variables order matters (refuted with a witness), the general version is C25_evidence_partial."
  },
  {
   "property": "C26",
   "status": "proved",
   "theorems": [
    "PGMax.C26_var_to_fac",
    "PGMax.C26_evidence"
   ],
   "note": ""
  },
  {
   "property": "C27",
   "status": "partial",
   "theorems": [
    "PGMax.C27_exact",
    "PGMax.C27_partial",
    "PGMax.C27_refuted"
   ],
   "note": "C27_exact gives the message with no side condition: the maximum is taken with the floor -1e5 on the full score. The plain statement therefore fails when all scores at s are below -1e5 (C27_refuted); C27_partial is the statement when some score reaches -1e5, and the floor value for states in no configuration."
  },
  {
   "property": "C28",
   "status": "partial",
   "theorems": [
    "PGMax.C28_exact",
    "PGMax.C28_sum_partial",
    "PGMax.C28_refuted"
   ],
   "note": "C28_exact gives the message with no side condition, regulariser included. C28_sum_partial bounds the regulariser by T*exp(-1e5) when some score reaches -1e5; below that it is not small (C28_refuted)."
  },
  {
   "property": "C29",
   "status": "partial",
   "theorems": [
    "PGMax.C29_partial",
    "PGMax.C29_refuted"
   ],
   "note": "Proved for every number of parents when the differences of at least two parents of the factor exceed -1e5 (nothing needed for one parent) and either the graph has at most 1e5 logical parents or each logical factor has a parent with difference >= -1e5. Missing: other incoming messages, for which the code's argmax initialisation (NEG_INF = -1e5) makes the statement false (C29_refuted)."
  },
  {
   "property": "C30",
   "status": "proved",
   "theorems": [
    "PGMax.C30"
   ],
   "note": ""
  },
  {
   "property": "C31",
   "status": "partial",
   "theorems": [
    "PGMax.C31_segments_partial",
    "PGMax.C31_run_partial",
    "PGMax.C31_refuted_floor",
    "PGMax.C31_refuted_run",
    "PGMax.C31_refuted_large"
   ],
   "note": "Proved for every array and segmentation, and after every run: values in [-1000,0], shift by one number per message, clipping; maximum exactly 0 for messages with a value of at least -1e5 or of the largest size. Refuted: shorter messages below -1e5 get a negative maximum; with wrapped negative slice indices (JAX 0.3.13) the first message is not normalised in arrays of 1e5 or more entries."
  },
  {
   "property": "C32",
   "status": "partial",
   "theorems": [
    "PGMax.C32_partial",
    "PGMax.C32_uniform",
    "PGMax.C32_iff",
    "PGMax.C32_refuted"
   ],
   "note": "Proved whenever the first run ends normalised (always, if all variables in factors have equally many states), and that this is necessary; refuted otherwise by a graph mixing 2 and 3 states."
  },
  {
   "property": "C33",
   "status": "proved",
   "theorems": [
    "PGMax.C33"
   ],
   "note": "All graphs, arrays, iteration counts, dampings, temperatures. With damping 1: repeated normalisation, a single one if it yields maximum 0."
  },
  {
   "property": "C34",
   "status": "partial",
   "theorems": [
    "PGMax.C34_flat",
    "PGMax.C34_partial",
    "PGMax.C34_refuted_zero_states"
   ],
   "note": "C34_flat: value in the flat array for every variable and state, no restriction. C34_partial: get_beliefs reports it in the position of the variable's index or under its name. Missing (refuted): groups with 0-state variables that have as many states as variables."
  },
  {
   "property": "C35",
   "status": "partial",
   "theorems": [
    "PGMax.C35_group_partial",
    "PGMax.C35_partial",
    "PGMax.C35_refuted_one_state",
    "PGMax.C35_refuted"
   ],
   "note": "Every graph, all arrays, every mixture of state counts of at least 1, for dictionaries and for arrays with a variable of more than one state. Refuted for every array in which all variables have one state: the result has the wrong shape or decoding raises."
  },
  {
   "property": "C36",
   "status": "partial",
   "theorems": [
    "PGMax.C36_group_partial",
    "PGMax.C36_gibbs",
    "PGMax.C36_partial",
    "PGMax.C36_refuted"
   ],
   "note": "Every graph, all real beliefs, all padded sizes, with real exp/log; missing (refuted): arrays in which all variables have one state; 0-state variables."
  },
  {
   "property": "C37",
   "status": "partial",
   "theorems": [
    "PGMax.C37_partial",
    "PGMax.C37_tame_partial",
    "PGMax.C37_refuted"
   ],
   "note": "Every n, d, graph and memory layout, temperature 0, both enumeration and logical factors: all messages of run_bp equal those of n textbook iterations (spec tbRun: maximum in WithBot over the joint configurations of each factor, damping, normalisation, clipping at -1000) as long as the numbers are moderate (the code's -1e5 acts as minus infinity). C37_tame_partial counts messages of complete tables with the range of their log potentials instead of 1000, which admits variables of high degree. Missing: larger numbers, where the code deviates (C37_refuted)."
  },
  {
   "property": "C38",
   "status": "partial",
   "theorems": [
    "PGMax.C38_partial",
    "PGMax.C38_decode_dist_partial",
    "PGMax.C38_decode_partial",
    "PGMax.C38_refuted"
   ],
   "note": "Every acyclic factor graph (SimpleGraph.IsAcyclic of the variable/factor graph; forests and isolated variables included), enumeration and logical factors, temperature 0, damping 0, no message clipped after the last iteration: beliefs equal exact max-marginals up to a constant after as many iterations as factors on a longest path from the variable (always: after as many as there are factors), and decode_map_states returns the state of every variable that has the same state in all MAP assignments. Missing: numbers that are not moderate, where the code's -1e5 is not minus infinity (C38_refuted), and groups for which decode_map_states fails (C35)."
  },
  {
   "property": "C39",
   "status": "partial",
   "theorems": [
    "PGMax.C39_partial",
    "PGMax.C39_marginals_partial",
    "PGMax.C39_refuted"
   ],
   "note": "A constant per variable, all graphs, any number of iterations, damping in [0,1], any temperature: same messages, beliefs shifted by the constant, same decoded states and marginals, provided log potentials, evidence and degrees are so small (Moderate; e.g. P + K(E + 1000 D) <= 97000) that the code's -1e5 acts as minus infinity before and after the shift. Refuted without it."
  },
  {
   "property": "C40",
   "status": "partial",
   "theorems": [
    "PGMax.C40_partial",
    "PGMax.C40_refuted"
   ],
   "note": "A constant per enumeration factor, all graphs, any number of iterations, damping in [0,1], any temperature: same messages and beliefs, provided the numbers are Moderate before and after the shift. Refuted without it."
  },
  {
   "property": "C41",
   "status": "partial",
   "theorems": [
    "PGMax.C41_factors",
    "PGMax.C41_groups_partial",
    "PGMax.C41_accepted",
    "PGMax.C41_partial",
    "PGMax.C41_refuted"
   ],
   "note": "Two graphs over the same variable groups with the same factors (in any order and grouping), log potentials and messages have the same messages and beliefs after any number of iterations, at any damping and temperature; for a list of groups added without an exception and any permutation of it (the permuted list is then also accepted), with the groups' log potentials, zero or corresponding messages, and equal evidence. Missing: both orders must compile; C41_refuted: a group of two OR factors followed by a single OR factor does not compile, the other order does. Real-number model: floating-point summation order is not modelled."
  },
  {
   "property": "C42",
   "status": "partial",
   "theorems": [
    "PGMax.C42_partial",
    "PGMax.C42_refuted"
   ],
   "note": "Both directions, for normalised unclipped messages: undamped fixed point => damped fixed point for damping in [0,1] (any damping for equal state counts); converse for damping != 1 if new messages are above -1e5 or go to a variable with the most states. C42_refuted: concrete graph and arrays where zero messages are fixed for damping 1/2 but not undamped."
  },
  {
   "property": "C43",
   "status": "proved",
   "theorems": [
    "PGMax.C43_init",
    "PGMax.C43_to_bp_state",
    "PGMax.C43_parts",
    "PGMax.C43_same_graph",
    "PGMax.C43_run"
   ],
   "note": ""
  },
  {
   "property": "C44",
   "status": "proved",
   "theorems": [
    "PGMax.C44_enum",
    "PGMax.C44_logical"
   ],
   "note": "FactorGroup.__getitem__ returns the factor over exactly the requested variables with the right configs/log potentials."
  },
  {
   "property": "C45",
   "status": "proved",
   "theorems": [
    "PGMax.C45"
   ],
   "note": ""
  },
  {
   "property": "C46",
   "status": "partial",
   "theorems": [
    "PGMax.C46_partial",
    "PGMax.C46_refuted"
   ],
   "note": "Every graph, every union of components, all arrays, any temperature, damping, iteration count; missing: more than 100000 OR/AND parents at T=0; and (JAX 0.3.13 negative start index) about 100000 edge states, where it is false: C46_refuted, a graph of 100001 edge states."
  },
  {
   "property": "C47",
   "status": "proved",
   "theorems": [
    "PGMax.C47_loops",
    "PGMax.C47"
   ],
   "note": "Memory contents are an arbitrary function of array and position; any graph, also invalid ones."
  },
  {
   "property": "C48",
   "status": "proved",
   "theorems": [
    "PGMax.C48"
   ],
   "note": "All graphs, real inputs, temperatures, damping values, iteration counts; 32-bit index range as in C31 (SegFits)."
  },
  {
   "property": "C49",
   "status": "proved",
   "theorems": [
    "PGMax.C49"
   ],
   "note": "SameFactors compares the factors position by position as (scope, multiset of (configuration, log potential)); nothing about grouping or variable groups. Any temperature, damping, iteration count, and any exp/log."
  },
  {
   "property": "C50",
   "status": "proved",
   "theorems": [
    "PGMax.C50"
   ],
   "note": "Covers permutations of the variable groups, additional groups and regrouped memory: any list of distinct groups that contains the variables. Includes that the other graph compiles and BP can be set up for it."
  },
  {
   "property": "C51",
   "status": "partial",
   "theorems": [
    "PGMax.C51_partial",
    "PGMax.C51_refuted"
   ],
   "note": "BP can be set up for a compiled graph if and only if it has a factor. Refuted for a graph without factors: np.max of an empty array raises ValueError."
  },
  {
   "property": "C52",
   "status": "proved",
   "theorems": [
    "PGMax.C52"
   ],
   "note": "Exact result of add_factors for any nested list: the groups added, and why the first rejected one is rejected."
  },
  {
   "property": "C53",
   "status": "partial",
   "theorems": [
    "PGMax.C53_partial",
    "PGMax.C53_sum_partial",
    "PGMax.C53_refuted"
   ],
   "note": "C53_sum_partial: the same at every positive temperature. Proved for moderate numbers, also that the limit does not depend on the initial messages. Refuted in general: on a tree with evidence -99500 the floor of -1e5 in the enumeration messages makes the messages oscillate for ever."
  },
  {
   "property": "C54",
   "status": "partial",
   "theorems": [
    "PGMax.C54_partial",
    "PGMax.C54_tame_partial",
    "PGMax.C54_logical_partial",
    "PGMax.C54_refuted"
   ],
   "note": "Proved for moderate numbers (the code's -1e5 acts as minus infinity), all graphs, dampings and iteration counts; exact without enumeration factors; C54_tame_partial counts messages of complete tables with the range of their log potentials instead of 1000. Refuted for large numbers: evidence -2e5."
  },
  {
   "property": "C55",
   "status": "partial",
   "theorems": [
    "PGMax.C55_partial",
    "PGMax.C55_power_partial",
    "PGMax.C55_marginals_partial",
    "PGMax.C55_refuted"
   ],
   "note": "Proved for moderate numbers when no message is clipped; C55_power_partial: at temperature T get_marginals reports the T-th powers of the weights, normalised (it does not divide by the temperature). Refuted for large numbers."
  },
  {
   "property": "C56",
   "status": "partial",
   "theorems": [
    "PGMax.C56_partial",
    "PGMax.C56_sum_partial",
    "PGMax.C56_decode_partial",
    "PGMax.C56_marginals_partial",
    "PGMax.C56_refuted"
   ],
   "note": "Proved for moderate numbers at every temperature and damping, with exactness of MAP states and marginals on trees of complete tables without the assumption that no message is clipped. Refuted for large numbers."
  },
  {
   "property": "C57",
   "status": "proved",
   "theorems": [
    "PGMax.C57",
    "PGMax.C57_sum"
   ],
   "note": "C57: temperature 0; C57_sum: positive temperatures. The hypotheses Fits and SegFits are the size limits of the quantifier (the code uses the integer 1e5 as infinity); there is none on the numbers."
  },
  {
   "property": "C58",
   "status": "partial",
   "theorems": [
    "PGMax.C58_limit",
    "PGMax.C58_limit_tendsto",
    "PGMax.C58_partial",
    "PGMax.C58_tendsto_partial",
    "PGMax.C58_decode_partial",
    "PGMax.C58_refuted"
   ],
   "note": "C58_limit: the limit exists for all numbers and is the iteration in which logical factors send exact maxima. Proved to be temperature 0 of the code for all log potentials and messages if evidence of two parents of every logical factor is moderate. Refuted otherwise: at temperature 0 the argmax over logical parents starts at -1e5, at positive temperatures there is no such constant (evidence -2e5: message 0, limit -5)."
  },
  {
   "property": "C59",
   "status": "partial",
   "theorems": [
    "PGMax.C59_partial",
    "PGMax.C59_sum_partial",
    "PGMax.C59_decode_partial",
    "PGMax.C59_marginals_partial",
    "PGMax.C59_refuted"
   ],
   "note": "Proved for moderate numbers; MAP states and marginals if the undamped messages are not clipped in the end. Refuted in general: on a tree with evidence -99000 and damping 1/4 the floor of -1e5 in the enumeration messages makes the messages oscillate for ever."
  },
  {
   "property": "C60",
   "status": "proved",
   "theorems": [
    "PGMax.C60",
    "PGMax.C60_marginals",
    "PGMax.C60_loop",
    "PGMax.C60_refuted"
   ],
   "note": "Contraction in the oscillation (maximum minus minimum) of the change of each message. The statement includes that numbers are moderate (see DESIGN.md). C60_refuted: at temperature 0, on a loop of three tables the messages alternate for ever between two arrays."
  },
  {
   "property": "C61",
   "status": "proved",
   "theorems": [
    "PGMax.C61",
    "PGMax.C61_compiled",
    "PGMax.C61_fresh"
   ],
   "note": "C61_fresh assumes, as C12 does, that hashes and ids do not collide (Faithful); unlike C12 it needs no discipline in the use of compute_offsets."
  },
  {
   "property": "C62",
   "status": "proved",
   "theorems": [
    "PGMax.C62",
    "PGMax.C62_raises",
    "PGMax.C62_update",
    "PGMax.C62_broadcast_refuted"
   ],
   "note": "The two assumptions on evidence are part of the statement; C62_broadcast_refuted and C23 show that they are needed."
  },
  {
   "property": "C63",
   "status": "proved",
   "theorems": [
    "PGMax.C63",
    "PGMax.C63_sum",
    "PGMax.C63_map",
    "PGMax.C63_messages"
   ],
   "note": "Complete tables send no message below -(R_f + 1000 d^n) (C56), no factor one below -1000 (C31), so evidence outweighs them. The statement includes that numbers are moderate (see DESIGN.md)."
  },
  {
   "property": "C64",
   "status": "proved",
   "theorems": [
    "PGMax.C64",
    "PGMax.C64_map",
    "PGMax.C64_local",
    "PGMax.C64_refuted"
   ],
   "note": "Single-loops-and-trees optimality of max-product fixed points (Weiss and Freeman), for factors of any number of variables and hard constraints. fewLoops_of_acyclic and fewLoops_of_degree give graphs with few loops. The statement includes that numbers are moderate. C64_refuted: on a graph with two loops the decoded states are not a MAP assignment."
  },
  {
   "property": "C65",
   "status": "partial",
   "theorems": [
    "PGMax.C65_sum",
    "PGMax.C65_partial",
    "PGMax.C65_rounding_sum",
    "PGMax.C65_rounding_partial",
    "PGMax.C65_refuted"
   ],
   "note": "C65_sum and C65_rounding_sum: all positive temperatures, all numbers, all graphs. C65_partial and C65_rounding_partial: temperature 0 if evidence of two parents of every logical factor with several parents is moderate. Refuted otherwise: at evidence -1e5 of a parent of an AND factor the messages at temperature 0 jump from -5 to 0."
  },
  {
   "property": "C66",
   "status": "proved",
   "theorems": [
    "PGMax.C66_rounding",
    "PGMax.C66_inputs",
    "PGMax.C66_limit"
   ],
   "note": "Rounding, perturbed inputs, and limits, under the conditions of C60. Without weak factors the bounds of C65 grow with the number of iterations."
  },
  {
   "property": "C67",
   "status": "proved",
   "theorems": [
    "PGMax.C67_sizes",
    "PGMax.C67_model"
   ],
   "note": "The sizes of the program are parameters. C67_sizes: exactly the accepted sizes, ValueError otherwise. C67_model: compiles, BP.create succeeds, four places per variable, the score of every assignment."
  },
  {
   "property": "C68",
   "status": "proved",
   "theorems": [
    "PGMax.C68_sizes",
    "PGMax.C68_model"
   ],
   "note": "Numbers and sizes are parameters; the id()s of the four arrays are distinct modulo 2^32 (as in C02). C68_sizes: exactly the accepted sizes, ValueError otherwise. C68_model: compiles, BP.create succeeds, joint assignments are exactly the binary convolutions, scores."
  },
  {
   "property": "C69",
   "status": "proved",
   "theorems": [
    "PGMax.C69_sizes",
    "PGMax.C69_model",
    "PGMax.C69_alternative"
   ],
   "note": "Sizes and parameters are arbitrary; the id()s of the two arrays are distinct modulo 2^32 (as in C02). The program does not notice weights of a wrong shape with the right number of entries. C69_alternative: same scopes, factors, log potentials, messages and beliefs."
  },
  {
   "property": "C70",
   "status": "proved",
   "theorems": [
    "PGMax.C70_sizes",
    "PGMax.C70_model"
   ],
   "note": "Sizes are parameters; the id()s of the four factor groups are distinct. C70_model covers bp_state, BP.create and init with both kinds of updates, and reads scores from the arrays that init returns."
  },
  {
   "property": "C71",
   "status": "proved",
   "theorems": [
    "PGMax.C71_inputs",
    "PGMax.C71_model"
   ],
   "note": "Networks, edges and window are parameters; the id()s of the arrays are distinct modulo 2^32 (as in C02), those of the groups distinct. Entries of edges are taken as non-negative."
  },
  {
   "property": "C72",
   "status": "partial",
   "theorems": [
    "PGMax.C72_partial",
    "PGMax.C72_kept",
    "PGMax.C72_symmetric_partial",
    "PGMax.C72_refuted"
   ],
   "note": "C72_partial: both graphs satisfy the size limits Fits and, at temperature 0, either the order of the parents of OR and AND factors is kept or evidence does not prefer one state of their variables by about 1e5. C72_kept: with the order of the parents kept, for all evidence. C72_symmetric_partial: symmetric beliefs for symmetric graphs and evidence. C72_refuted: an OR factor whose parents in two orders give different beliefs."
  },
  {
   "property": "C73",
   "status": "proved",
   "theorems": [
    "PGMax.C73",
    "PGMax.C73_uniform",
    "PGMax.C73_flip"
   ],
   "note": "Applies C72 to the graph of C67. The cells are those that variables[i, j] gives. If dynamic_slice adds the length of the array to negative indices, 8mn + 2 must be at most 1e5 (the program has 50 by 50 cells)."
  },
  {
   "property": "C74",
   "status": "proved",
   "theorems": [
    "PGMax.C74",
    "PGMax.C74_shape"
   ],
   "note": "For one sample of the batch (jax.vmap takes one slice of every array). C74_shape: what an array of the shape of SW does in general."
  },
  {
   "property": "C75",
   "status": "proved",
   "theorems": [
    "PGMax.C75_evidence",
    "PGMax.C75_windows",
    "PGMax.C75_broadcast",
    "PGMax.C75_score",
    "PGMax.C75_model"
   ],
   "note": "For one image (the loop over the images is outside); positions are nonnegative. C75_broadcast: the witness for small images."
  },
  {
   "property": "C76",
   "status": "partial",
   "theorems": [
    "PGMax.C76_partial",
    "PGMax.C76_decode_partial",
    "PGMax.C76_sum_partial",
    "PGMax.C76_marginals_partial",
    "PGMax.C76_refuted"
   ],
   "note": "Missing: numbers that are not moderate (C76_refuted: with evidence -2e5, a message has range 5 although everything behind it has range 0); the size limits Fits."
  },
  {
   "property": "C77",
   "status": "partial",
   "theorems": [
    "PGMax.C77_partial",
    "PGMax.C77_damped_partial",
    "PGMax.C77_tie",
    "PGMax.C77_loop"
   ],
   "note": "Missing: networks with loops (C77_loop: with the program's own parameters, messages -1 and 1, 30 iterations and damping 1/2, it returns a deformation with score 1 although the only best one has score 3); ties (C77_tie: on a tree with two best deformations the decoded states are infeasible and their score is too large); messages so large that they are clipped; windows of one pixel."
  },
  {
   "property": "C78",
   "status": "partial",
   "theorems": [
    "PGMax.C78_partial",
    "PGMax.C78_decode_partial",
    "PGMax.C78_sum_partial",
    "PGMax.C78_marginals_partial",
    "PGMax.C78_tight",
    "PGMax.C78_refuted"
   ],
   "note": "Missing: numbers that are not moderate (C78_refuted). The bound is attained (C78_tight)."
  },
  {
   "property": "C79",
   "status": "partial",
   "theorems": [
    "PGMax.C79_partial",
    "PGMax.C79_program_partial",
    "PGMax.C79_slow"
   ],
   "note": "Missing: as in C77, networks with loops (C77_loop), ties (C77_tie), messages so large that they are clipped, windows of one pixel. C79_slow: 10 iterations are not enough on a path with 7 edges."
  },
  {
   "property": "C80",
   "status": "proved",
   "theorems": [
    "PGMax.C80",
    "PGMax.C80_inputs",
    "PGMax.C80_threshold"
   ],
   "note": "The convolutions are an argument of the model."
  },
  {
   "property": "C81",
   "status": "partial",
   "theorems": [
    "PGMax.C81_images",
    "PGMax.C81_partial"
   ],
   "note": "C81_images is for all networks. C81_partial: missing as in C79, networks with loops (C77_loop), ties (C77_tie), larger trees (C79_slow)."
  },
  {
   "property": "C82",
   "status": "proved",
   "theorems": [
    "PGMax.C82",
    "PGMax.C82_bound",
    "PGMax.C82_gap"
   ],
   "note": ""
  },
  {
   "property": "C83",
   "status": "proved",
   "theorems": [
    "PGMax.C83",
    "PGMax.C83_marginals",
    "PGMax.C83_or",
    "PGMax.C83_and"
   ],
   "note": "That messages are not clipped and numbers are moderate is part of the statement."
  },
  {
   "property": "C84",
   "status": "partial",
   "theorems": [
    "PGMax.C84_model",
    "PGMax.C84_partial",
    "PGMax.C84_sum_partial",
    "PGMax.C84_separable_partial",
    "PGMax.C84_separable_sum_partial",
    "PGMax.C84_refuted"
   ],
   "note": "Factors from which more than constants are moved must have all configurations and log potentials in a range of 1000, or else the messages are clipped: with a term of 1500 the decoded states differ (C84_refuted)."
  },
  {
   "property": "C85",
   "status": "partial",
   "theorems": [
    "PGMax.C85_loss",
    "PGMax.C85_batch",
    "PGMax.C85_flat",
    "PGMax.C85_repeat",
    "PGMax.C85_partial",
    "PGMax.C85_refuted"
   ],
   "note": "The prediction compares the sum of all but the last two marginals with the last two, so it is only the most probable class if classes 1 and 2 have one clone each; otherwise a class of probability 16/18 can lose (C85_refuted)."
  },
  {
   "property": "C86",
   "status": "proved",
   "theorems": [
    "PGMax.C86_textbook"
   ],
   "note": ""
  },
  {
   "property": "C87",
   "status": "proved",
   "theorems": [
    "PGMax.C87_beliefs",
    "PGMax.C87_decode",
    "PGMax.C87_marginals",
    "PGMax.C87_stack",
    "PGMax.C87_refuted_scalar"
   ],
   "note": "jax.vmap is modelled as computing the function for every index of the first axes and stacking the results (Model/Batch.lean). The condition on the axes is needed for a single one-state variable in an array without axes (C87_refuted_scalar)."
  },
  {
   "property": "C88",
   "status": "proved",
   "theorems": [
    "PGMax.C88",
    "PGMax.C88_map",
    "PGMax.C88_batch"
   ],
   "note": "Noise is an argument of the model. Bounds: biases and weights at most 1000, and w + 2 (e + B) + (nh + nv) w at most 100000 for the largest bias B, weight w and noise e."
  },
  {
   "property": "C89",
   "status": "proved",
   "theorems": [
    "PGMax.C89"
   ],
   "note": "exp and log are those of the reals; the difference comes from the constant -1e5 in the code's log-sum-exp (C54). Bounds as in C88, without noise."
  },
  {
   "property": "C90",
   "status": "proved",
   "theorems": [
    "PGMax.C90",
    "PGMax.C90_loss",
    "PGMax.C90_batch",
    "PGMax.C90_evidence"
   ],
   "note": "Bounds on potentials and evidence keep the constants of the code (1e5, C73) out of the way; sizes up to 12499 cells where negative segment indices would wrap. Gradients (jax.grad) are not modelled."
  },
  {
   "property": "C91",
   "status": "proved",
   "theorems": [
    "PGMax.C91",
    "PGMax.C91_keep",
    "PGMax.C91_strong"
   ],
   "note": "Bounds as in C90."
  },
  {
   "property": "C92",
   "status": "proved",
   "theorems": [
    "PGMax.C92_states",
    "PGMax.C92_shift",
    "PGMax.C92_transpose",
    "PGMax.C92_checker"
   ],
   "note": "Bounds as in C90."
  },
  {
   "property": "C93",
   "status": "partial",
   "theorems": [
    "PGMax.C93_textbook",
    "PGMax.C93_partial",
    "PGMax.C93_sum_textbook",
    "PGMax.C93_sum_partial",
    "PGMax.C93_pairs_partial",
    "PGMax.C93_refuted"
   ],
   "note": "For variables with more than two states, clipping of messages at -1000 breaks the property (C93_refuted: the decoded state drops from 1 to 0); proved for tables whose variables have two states, and for complete tables with log potentials in a range of at most 1000. Further limits: every state occurs in the tables, numbers are Tame. Above temperature 0 the order is exact if tables have at most two variables (C93_pairs_partial, which adds the marginals); for larger tables it holds up to the error of C54 (C93_sum_partial, numbers Moderate)."
  },
  {
   "property": "C94",
   "status": "proved",
   "theorems": [
    "PGMax.C94",
    "PGMax.C94_strong",
    "PGMax.C94_swap",
    "PGMax.C94_marginals"
   ],
   "note": "Bounds as in C88 and C89."
  },
  {
   "property": "C95",
   "status": "proved",
   "theorems": [
    "PGMax.C95",
    "PGMax.C95_batch",
    "PGMax.C95_quiet"
   ],
   "note": "Needs log odds below 100000 (the constant of the code) in front of every conjunction and, where negative segment ids wrap around, at most 100000 edge states."
  },
  {
   "property": "C96",
   "status": "proved",
   "theorems": [
    "PGMax.C96",
    "PGMax.C96_relabel",
    "PGMax.C96_mirror",
    "PGMax.C96_equal"
   ],
   "note": "Conditions as in C95."
  },
  {
   "property": "C97",
   "status": "proved",
   "theorems": [
    "PGMax.C97",
    "PGMax.C97_grey",
    "PGMax.C97_errors",
    "PGMax.C97_program"
   ],
   "note": "Display by matplotlib is not modelled, nor is the range of integer types. The last part has the conditions of C95."
  },
  {
   "property": "C98",
   "status": "partial",
   "theorems": [
    "PGMax.C98_partial",
    "PGMax.C98_small_partial",
    "PGMax.C98_sum_partial",
    "PGMax.C98_refuted"
   ],
   "note": "Holds while the numbers are so small that the constant -1e5 of the code acts as minus infinity; C98_refuted: evidence of 2e5 gives different beliefs in one iteration."
  },
  {
   "property": "C99",
   "status": "partial",
   "theorems": [
    "PGMax.C99_partial",
    "PGMax.C99_zero_partial",
    "PGMax.C99_cone_partial",
    "PGMax.C99_cover_partial",
    "PGMax.C99_refuted"
   ],
   "note": "Holds within the sizes for which the literal 100000 of the code means infinity (Fits); C99_refuted: false for a graph of 100001 edge states under JAX 0.3.13."
  },
  {
   "property": "C100",
   "status": "partial",
   "theorems": [
    "PGMax.C100_tree",
    "PGMax.C100_partial",
    "PGMax.C100_decode_partial",
    "PGMax.C100_complete_partial",
    "PGMax.C100_sum_partial",
    "PGMax.C100_marginals_partial",
    "PGMax.C100_refuted"
   ],
   "note": "Holds for numbers for which -1e5 acts as minus infinity, within the sizes of Fits, and if no message is clipped; C100_refuted: false with a clipped message."
  },
  {
   "property": "C101",
   "status": "proved",
   "theorems": [
    "PGMax.C101_inputs",
    "PGMax.C101_model",
    "PGMax.C101_crossing",
    "PGMax.C101_crossing_all",
    "PGMax.C101_image",
    "PGMax.C101_score",
    "PGMax.C101_best",
    "PGMax.C101_run"
   ],
   "note": "C101_run assumes noise up to 1000, diameter up to 8 and the size limit of Fits."
  },
  {
   "property": "C102",
   "status": "proved",
   "theorems": [
    "PGMax.C102_textbook",
    "PGMax.C102",
    "PGMax.C102_map",
    "PGMax.C102_cuts"
   ],
   "note": "For sizes and numbers for which -1e5 acts as minus infinity (Fits, Moderate, LogicalModerate), as the statement says."
  },
  {
   "property": "C103",
   "status": "partial",
   "theorems": [
    "PGMax.C103_inputs",
    "PGMax.C103_model",
    "PGMax.C103_marginals",
    "PGMax.C103_textbook_partial",
    "PGMax.C103_independent_partial",
    "PGMax.C103_uniform_partial"
   ],
   "note": "The last three statements are for potentials up to 1000, evidence up to 39000, damping up to one half; all runs need more than one state per variable and the size limit of Fits."
  },
  {
   "property": "C104",
   "status": "partial",
   "theorems": [
    "PGMax.C104_model",
    "PGMax.C104_partial",
    "PGMax.C104_map_partial",
    "PGMax.C104_probability",
    "PGMax.C104_sum_partial",
    "PGMax.C104_marginals_partial"
   ],
   "note": "Missing: terms that differ by more than 1000, which are clipped (C84_refuted), and numbers that are not moderate."
  },
  {
   "property": "C105",
   "status": "proved",
   "theorems": [
    "PGMax.C105",
    "PGMax.C105_pos",
    "PGMax.C105_marginals",
    "PGMax.C105_stationary",
    "PGMax.C105_value",
    "PGMax.C105_rest",
    "PGMax.C105_fixed"
   ],
   "note": "That numbers are moderate and messages are not clipped is part of the statement for messages at rest."
  },
  {
   "property": "C106",
   "status": "partial",
   "theorems": [
    "PGMax.C106_partial",
    "PGMax.C106_rest_partial",
    "PGMax.C106_tables_partial"
   ],
   "note": "Missing: numbers that are not moderate, where -1e5 does not act as minus infinity (C55_refuted), and the size limits Fits."
  },
  {
   "property": "C107",
   "status": "partial",
   "theorems": [
    "PGMax.C107_partial",
    "PGMax.C107_rest_partial"
   ],
   "note": "Missing: numbers that are not moderate, where -1e5 does not act as minus infinity (C55_refuted), and the size limits Fits."
  },
  {
   "property": "C108",
   "status": "partial",
   "theorems": [
    "PGMax.C108_partial",
    "PGMax.C108_sum_partial",
    "PGMax.C108_refuted"
   ],
   "note": "False when messages are clipped (C108_refuted: doubling all scores changes a decoded state). Missing: numbers that are not moderate, and the size limits Fits."
  },
  {
   "property": "C109",
   "status": "partial",
   "theorems": [
    "PGMax.C109_partial",
    "PGMax.C109_pairs_partial",
    "PGMax.C109_sum_textbook"
   ],
   "note": "For the code at temperature 0; above it for the code if tables have at most two variables (C109_pairs_partial: the offset of the code's sums keeps the order, and the reported marginals are bracketed too), and for textbook sum-product with all tables. Missing: tables in which a state does not occur, variables of more than two states (there are no lowest messages among the clipped ones), numbers that are not moderate, and the size limits Fits."
  },
  {
   "property": "C110",
   "status": "partial",
   "theorems": [
    "PGMax.C110_partial",
    "PGMax.C110_textbook"
   ],
   "note": "For the code at temperature 0. Missing: tables with impossible configurations or ranges over 1000 (there the clipping of messages loses what a table gains), variables of more than two states, numbers that are not moderate, and the size limits Fits."
  },
  {
   "property": "C111",
   "status": "proved",
   "theorems": [
    "PGMax.C111",
    "PGMax.C111_exact",
    "PGMax.C111_limit"
   ],
   "note": "For the code up to ringGap, which at rest is about n e^-100000 (the code's minus infinity); C111 is the statement for messages that still change by at most η and are not clipped, C111_limit for the limit of all runs, with moderate numbers and the size limits Fits; C111_exact is the statement for consistent distributions, without any error."
  },
  {
   "property": "C112",
   "status": "proved",
   "theorems": [
    "PGMax.C112",
    "PGMax.C112_sum",
    "PGMax.C112_tests",
    "PGMax.C112_assert"
   ],
   "note": "Exact arithmetic. That evidence has to be of moderate size is needed: C98_refuted is a counterexample for large numbers. The Gumbel noise of the programs lies between about -4 and 37 in float64; C112_tests allows 15000."
  },
  {
   "property": "C113",
   "status": "proved",
   "theorems": [
    "PGMax.C113",
    "PGMax.C113_beliefs",
    "PGMax.C113_sum",
    "PGMax.C113_gates"
   ],
   "note": "Numbers that are not moderate are excluded by the statement (C37_refuted). C113_gates is for temperature 0."
  },
  {
   "property": "C114",
   "status": "proved",
   "theorems": [
    "PGMax.C114",
    "PGMax.C114_joint",
    "PGMax.C114_more",
    "PGMax.C114_enough",
    "PGMax.C114_limit",
    "PGMax.C114_program",
    "PGMax.C114_refuted"
   ],
   "note": "The unconditional claim that tied variables are decoded to the same state is refuted by C114_refuted; the other theorems say exactly when it holds."
  },
  {
   "property": "C115",
   "status": "proved",
   "theorems": [
    "PGMax.C115",
    "PGMax.C115_order",
    "PGMax.C115_overlap",
    "PGMax.C115_beliefs",
    "PGMax.C115_names",
    "PGMax.C115_refuted",
    "PGMax.C115_names_refuted"
   ],
   "note": "That the entries of a dictionary take effect in its order (C115_refuted) and that beliefs can be had for any names (C115_names_refuted) is refuted; the other theorems say exactly what happens. Dictionaries of evidence whose keys are not compared as in a total order (several variables and their group, with hashes in another order than the tuples) are only covered by (1)."
  },
  {
   "property": "C116",
   "status": "proved",
   "theorems": [
    "PGMax.C116",
    "PGMax.C116_same",
    "PGMax.C116_enum",
    "PGMax.C116_logical",
    "PGMax.C116_wiring",
    "PGMax.C116_vmap",
    "PGMax.C116_vmap_raises",
    "PGMax.C116_vmap_batch",
    "PGMax.C116_run",
    "PGMax.C116_refuted"
   ],
   "note": "That every transformation of a valid wiring returns is refuted (C116_refuted): wirings are validated whenever they are put together."
  },
  {
   "property": "C117",
   "status": "partial",
   "theorems": [
    "PGMax.C117_ball",
    "PGMax.C117_partial",
    "PGMax.C117_decode_partial",
    "PGMax.C117_complete_partial",
    "PGMax.C117_girth_partial",
    "PGMax.C117_sum_partial",
    "PGMax.C117_marginals_partial",
    "PGMax.C117_refuted",
    "PGMax.C117_loop_refuted"
   ],
   "note": "Missing: numbers for which the constant -1e5 of the code does not act as minus infinity, the size limits Fits, and clipped messages, for which it is false (C117_refuted). With a cycle in the ball it is false (C117_loop_refuted)."
  },
  {
   "property": "C118",
   "status": "partial",
   "theorems": [
    "PGMax.C118_partial",
    "PGMax.C118_map",
    "PGMax.C118_decode_partial",
    "PGMax.C118_refuted"
   ],
   "note": "Missing: numbers for which the constant -1e5 of the code does not act as minus infinity, and the size limits Fits. For weaker evidence it is false (C118_refuted)."
  }
 ]
}