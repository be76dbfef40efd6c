# Formal model of PGMax in Lean 4: design

Target: `/repo` (vicariousinc/PGMax at the pinned commit), Python on NumPy/JAX. The code is not run here; the only tie
between the theorems and the code is that every definition in `lean/Verif/Model` was written by reading the cited lines.

## 1. Layout

| path | contents |
|---|---|
| `lean/Verif/Model/Arr.lean` | NumPy/JAX primitives: cumsum, slices, slice assignment, gather, scatter, tile, repeat |
| `lean/Verif/Model/VGroup.lean` | `pgmax/vgroup/*`: hashes, handles, indexing, flatten/unflatten of arrays and dictionaries |
| `lean/Verif/Model/Factor.lean` | `pgmax/factor/{factor,enum,logical}.py`: construction, validation, wiring compilation and concatenation |
| `lean/Verif/Model/FGroup.lean` | `pgmax/fgroup/*`: enumeration, pairwise, logical and single factor groups |
| `lean/Verif/Model/FGraph.lean` | `pgmax/fgraph/fgraph.py`: construction, `add_factors`, offsets, wiring, compiled state |
| `lean/Verif/Model/Messages.lean` | message updates of `enum.py`, `logical.py`, `bp.py`, and `bp_utils.py` (normalisation) |
| `lean/Verif/Model/BPState.lean` | `pgmax/infer/bp_state.py`: log-potential, message and evidence updates, reads, BP state |
| `lean/Verif/Model/BP.lean` | `pgmax/infer/bp.py`: `BP`, `update`, `run_bp`, beliefs, decoding, marginals |
| `lean/Verif/Model/Batch.lean` | `jax.vmap` of `init`, `run_bp`, `get_beliefs` as in the docstrings and programs; decoding and marginals of batches |
| `lean/Verif/Model/Cache.lean` | `pgmax/utils.py:11-20`, `fgraph.py` memoisation as a process-level state machine |
| `lean/Verif/Model/Examples.lean` | the parts of the programs in `examples/` that build graphs, sizes and data being parameters |
| `lean/Verif/Model/ExamplesRun.lean` | the parts of these programs that prepare evidence and use results |
| `lean/Verif/Model/ExamplesImage.lean` | `get_bu_msg` of `examples/rcn.py` after the convolutions; the RCN program as a whole |
| `lean/Verif/Model/ExamplesGmrf.lean` | evidence, marginals, prediction and loss of `examples/gmrf.py` |
| `lean/Verif/Model/ExamplesRbm.lean` | samples, batches of samples, MAP states and marginals of `examples/rbm.py` |
| `lean/Verif/Model/ExamplesPlot.lean` | `plot_images` of `examples/pmp_binary_deconvolution.py` and its last picture |
| `lean/Verif/Model/ExamplesDeconv.lean` | samples and batches of samples of `examples/pmp_binary_deconvolution.py` |
| `lean/Verif/Model/ExamplesIsing.lean` | images, losses, batches of losses and evidence of `examples/ising_model.py` |
| `lean/Verif/Model/ProgramCuts.lean` | the program in `tests/test_pgmax.py` that labels the cuts of a depth image |
| `lean/Verif/Model/ProgramPatches.lean` | the program in `tests/test_pgmax.py` with hidden variables over patches of an image |
| `lean/Verif/Model/ProgramGates.lean` | the programs in `tests/factor/test_or.py` and `tests/factor/test_and.py`, with their assertions |
| `lean/Verif/Model/ProgramTies.lean` | the program `test_bp_different_num_states` in `tests/fgraph/test_fgraph.py`, with its assertions |
| `lean/Verif/Model/Jit.lean` | dictionaries through `jax.jit`: Python's sort of keys, comparisons of groups, variables and names, the compiled `update` and `get_beliefs`, CPython's hash of a pair |
| `lean/Verif/Model/Pytree.lean` | `BPArrays` and wirings as pytrees: `tree_flatten`, `tree_unflatten`, `tree_map`, `vmap` of functions of `BPArrays` |
| `lean/Verif/Spec/VGroup.lean`, `Spec/FGraph.lean` | positions of indices and slices; factors, scopes, tables and start positions of a graph, independent of wiring |
| `lean/Verif/Spec/BP.lean`, `Spec/Beliefs.lean` | scopes, rows and scores of factors, incoming and outgoing messages as functions, beliefs, decoded states, marginals |
| `lean/Verif/Spec/Textbook.lean` | textbook max-product iteration on functions (edge, state) ↦ value: no arrays, no wiring, no floor |
| `lean/Verif/Spec/SumProduct.lean` | textbook sum-product iteration; weights of joint assignments and sums of them |
| `lean/Verif/Spec/Floored.lean` | the iteration with the constant −1e5 of the code made explicit, for numbers of any size; the same with another rule for the factors' messages |
| `lean/Verif/Spec/Tree.lean` | joint assignments, scores, max-marginals, MAP assignments, the bipartite graph of variables and factors |
| `lean/Verif/Spec/Order.lean`, `Spec/Same.lean`, `Spec/Iso.lean`, `Spec/Retype.lean` | the same factors in another order, grouping or description, with other names or types |
| `lean/Verif/Spec/Consistent.lean`, `Spec/Bethe.lean` | distributions of the configurations of a factor, consistent distributions, Bethe free energy |
| `lean/Verif/Spec/Cover.lean` | neighbourhoods, and graphs that look alike from near a variable |
| `lean/Verif/Spec/Unwrap.lean` | the tree of walks that a factor graph unwraps into |
| `lean/Verif/Spec/Cache.lean` | what each graph reports if it is the only one (for the memoisation) |
| `lean/Verif/Spec/Factors.lean`, `Spec/Store.lean` | what a factor object describes; what can be read and written |
| `lean/Verif/Spec/Dominant.lean`, `Spec/Unanimous.lean`, `Spec/Independent.lean` | evidence that outweighs all factors, unique MAP assignments; states that evidence and factors agree on; independent variables |
| `lean/Verif/Spec/Fixed.lean` | parts of a graph with at most one loop in each component |
| `lean/Verif/Spec/Attractive.lean` | models that favour higher states more than others |
| `lean/Verif/Spec/Ring.lean` | rings of variables with two states, and what beliefs tell about them |
| `lean/Verif/Spec/Stability.lean` | how far changes of the inputs and rounding errors spread |
| `lean/Verif/Spec/Programs.lean`, `Spec/Image.lean`, `Spec/Rbm.lean`, `Spec/Ising.lean`, `Spec/Deconv.lean`, `Spec/DeconvSym.lean`, `Spec/Plot.lean`, `Spec/Cuts.lean`, `Spec/Patches.lean` | what the programs are meant to build and to compute |
| `lean/Verif/Lemmas/*` | helper lemmas (list algebra, closed forms of the loops), example graphs |
| `lean/Verif/Props/*` | the property theorems, with non-vacuity `example`s and negation witnesses beside them |
| `properties.jsonl`, `MANIFEST.json` | the properties and, for each, the theorems about it |
| `seeded/LOG.jsonl` | wrong programs tried against the theorems (section 5) |

## 2. Trusted base

* The Lean 4.33.0 kernel and Mathlib's proofs as checked by it. The property theorems depend on at most `propext`,
  `Classical.choice` and `Quot.sound` (`#print axioms`); there is no own axiom, no `sorry`, no `native_decide`, no `bv_decide`.
* The reading of `/repo` recorded in the model's comments (file and lines on every definition).
* The behaviour of NumPy/JAX/Python primitives written down in `Model/Arr.lean`: cumsum, basic slicing, slice assignment
  with broadcasting of one value, gather, scatter-add/max/set, repeat, insertion-ordered dictionaries, frozensets as finite sets,
  `lru_cache` as a dictionary keyed by hash and equality. What these libraries leave open is a *parameter* over which theorems
  quantify: contents of `np.empty` (`Garbage`: an arbitrary
  function of the array object and the position), value of an out-of-bounds gather (`Env.oob`), negative start of `lax.dynamic_slice` (`Env.wrapNeg`).
* Numbers: floats are elements of an arbitrary linearly ordered field (ℝ where `exp`/`log` matter). Rounding, overflow, NaN and
  float32 are **not** modelled (C65 bounds what rounding errors of a given size per iteration can do); a division by zero in the marginals gives NaN in the code and `none` in the model. `-inf` occurs only as padding of unflattened arrays and is the `⊥` of `WithBot α`.
  Integers are unbounded; the int64 claim about hashes is itself a theorem (C01).
* `jit` rebuilds dictionaries with sorted keys. The functions in `BPState.lean` and `BP.lean` take the order of a dictionary as given; `Jit.lean` models the sorting, and C115 says when it matters. Python's `list.sort` is insertion sort there, which gives the same result where `<` is a total order of the keys.
* What JAX does with registered classes (`tree_map`, `vmap`) is modelled in `Pytree.lean` as documented: parts in the order of the sorted names of the fields, one slice of every part per sample; C116 says that the rest of the model may treat objects and batches as such.
* Not modelled: `jit` compilation (`vmap` is modelled as a map over the samples of a batch), `checkpoint`, automatic differentiation, device placement; `pgmax/utils.py` apart from
  `NEG_INF` and `cached_property`; dataclass/`inspect` machinery (its effect, passing the named attributes, is modelled);
  the `print` in `FactorGraph.factors`; of the example programs, loading of data, gradient steps (automatic differentiation) and display of plots. Concurrency does not occur in the code.

## 3. Proof architecture

1. **Loop-faithful model → closed form.** Each compilation loop (in-place writes into uninitialised arrays) is proved equal to a
   `flatMap` closed form, for every value of the garbage parameter.
2. **Closed form → decomposition.** Scatter/gather on concatenated arrays with shifted indices splits, so that all flat arrays are
   concatenations of per-factor (per-edge) pieces. One lemma, `scatterWith` at position `k` folds exactly the entries with index
   `k`, carries the message theorems.
3. **Refinement.** `run_bp` on the flat arrays commutes with the textbook equations on functions (edge, state) ↦ value (C37).
   C38–C42, C46 are corollaries at the level of the specification.

## 4. Plan per property

`P` = proved in full; `V` = the code violates the property as stated: a theorem with a concrete witness refutes it, and a
`_partial` theorem gives the strongest true form; both are in `Props`.

| id | what is modelled, how it is proved |
|---|---|
| C01 | P. `vgPostInit`, `variables`; arithmetic on `id % 2^32 * 10^9 + i`. |
| C02 | V. ids congruent mod 2^32 conflate; partial: injective for ids that differ mod 2^32 (and sizes ≤ 10^9; a dict has no size check). |
| C03 | P. `NDVarArray.getitem`; spec = mixed-radix position, injective on in-range indices. |
| C04 | V for an index that starts with an integer and contains a slice (returns a pair of arrays); partial: all-slice indices, spec by membership in each slice + sorted order. |
| C05 | V when `num_states.sum() == prod(shape)`; partial outside that coincidence. |
| C06 | P for acceptance; round trip for every accepted flat array. |
| C07 | P. loop of `VarDict.unflatten` = consecutive slices; distinct names. |
| C08 | P. fold over groups; invariant: map of starts = prefix sums. |
| C09 | P. invariant over arbitrary histories of `addFactors`. |
| C10 | V. earlier scopes of a rejected group stay registered; partial: the groups are unchanged, and later adds that do not use the poisoned scopes behave the same; exact characterisation of the leftover. |
| C11 | P. fold invariant of `compute_offsets`. |
| C12 | V if `compute_offsets` is called directly on one of two equal graphs, or on hash collision; partial: all interleavings of operations on any number of graphs, without those. |
| C13 | P. closed form of the three nested loops. |
| C14 | P for enumeration; for OR/AND V (see C16), partial where compilation succeeds. |
| C15 | P. closed form of the logical loop. |
| C16 | V. `LogicalFactor.concatenate_wirings` shifts factor indices by the number of wirings; exact characterisation of when compilation succeeds. |
| C17 | P for graphs that compile. |
| C18 | V. `EnumFactorGroup` never validates configurations before inference; partial: single factors, shapes of potentials. |
| C19 | P. |
| C20 | V for 2×2 pairwise groups' messages; partial otherwise. |
| C21 | P. |
| C22 | P for the documented shapes. |
| C23 | V. flat length is not checked; partial: what is rejected. |
| C24 | P. |
| C25 | P for disjoint targets; refuted for overlapping ones. |
| C26 | P. scatter-add lemma + C08. |
| C27 | P, including the floor, stated exactly. |
| C28 | P over ℝ, exact with the regulariser and two-sided bound. |
| C29 | V below the −1e5 floor; partial: all parents' differences above −1e5 (static sufficient condition from C31). |
| C30 | P over ℝ (single-parent special case included). |
| C31 | V for arrays longer than 1e5 under wrapping `dynamic_slice`; partial otherwise. |
| C32 | from C31 (idempotence). |
| C33 | P. |
| C34 | P for the flat beliefs; V for `get_beliefs` on groups with 0-state variables; partial otherwise. |
| C35, C36 | V for arrays whose variables all have one state; partial otherwise. |
| C37 | V because of the floor −1e5; partial: refinement of `tbRun` for moderate numbers (`Moderate`: a static bound on log potentials, evidence and degrees; `Tame`: the same with the ranges of complete tables in place of the 1000 a message is clipped at). |
| C38 | V for large numbers; partial: exact max-marginals and MAP on acyclic graphs. Proof: root every component; messages towards the root are final after depth many iterations (induction over the rooted forest); the total score telescopes into slacks ≤ 0, which a top-down choice makes 0. |
| C39, C40 | V for large numbers; partial: induction over iterations, function-level shift lemmas. |
| C41 | V for the group order of OR/AND (C16); partial: same factors in any order. |
| C42 | V for clipped or unnormalised messages; partial. |
| C43, C44, C45 | P. |
| C46 | partial: 32-bit index ranges; refuted for 100001 edge states under JAX 0.3.13. Locality of every step along the edges. |
| C47 | P. Closed forms do not mention memory contents. |
| C48 | P. From clipping (C31). |
| C49, C50 | P. Runs depend on the factors as multisets of rows only. |
| C51 | V for graphs without factors; iff. |
| C52 | P. Induction over nested lists. |
| C53 | V for large numbers; partial, from the rooted forest of C38, at temperature 0 and at positive temperatures. |
| C54 | V for large numbers; partial: the code is the textbook iteration with slightly different sums; distance by a Lipschitz bound per iteration. |
| C55 | V for large numbers; partial: the weight of an assignment is the product of root beliefs and conditional weights, which sum to 1. |
| C56 | V for large numbers; partial: changing one state permutes the configurations of a complete table. |
| C57 | P. Refinement of `flRun` (`Spec/Floored.lean`) without any bound on the numbers. |
| C58 | V for large evidence of logical factors; partial: the two rules of C57 differ by O(T), and iterations are Lipschitz. |
| C59 | V for large evidence; partial: induction over a rooted forest, each message's error obeys E(n+1) = d E(n) + (1-d) B(n) with B the errors from below. |
| C60 | Contraction of the oscillation of message changes (weighted arithmetic-geometric mean inequality); unique fixed point by Cauchy sequences. V at temperature 0. |
| C61 | Induction over groups; the caches of `factors`, `log_potentials`, `wiring` by an invariant over call sequences. |
| C62 | Cells and writes as an abstract store (`Spec/Store.lean`); simulation by C21, C22, C24 step by step. |
| C63 | Lower bounds on messages (C31, C56) against the gap in evidence (`Spec/Dominant.lean`); each maximum in a factor is then attained at the favoured states. |
| C64 | Beliefs reparametrise the score (`jointScore_eq`); at a fixed point factor beliefs are at most variable beliefs; Hall's theorem gives every edge to one of its ends. V for two loops. |
| C65 | The rules of C57 are 2-Lipschitz and normalisation doubles; induction over iterations (`flStep_near`, `Compiled.rounded`). Rounding is any error of at most η per entry and iteration. V at temperature 0 where the evidence of a logical parent is -1e5. |
| C66 | One step of the code contracts the oscillation of message differences (`Close.step` of C60 read through `Compiled.step_sum`); errors add a geometric series (`Compiled.noisy`). A run with other inputs is a run with errors. |
| C67 | The loop of the program has a closed form (`isingScopes_eq`); two factors with the same variables are found by case analysis on `(i + 1) % m` (`torus_nodup`); `addAll_create`, `compiled_build` and `joint_weighs` turn closed forms of groups into a compiled graph and the score of an assignment. |
| C68 | The loop is a fold with a closed form (`deconv_fold`); `dictAppend_foldl` gives keys and values of the dictionary of OR factors; two factors cannot have the same variables because each contains its own `SW` or `X` variable; `or_allows`, `and_allows`, `joint_exists_iff` turn scopes into the convolution. |
| C69 | `enum_build` and `enumGroup_facs` give scopes, factors and log potentials of graphs of enumeration groups; `foldlM_addAll` turns the loop of the alternative program into a list of groups with the same tables, and C49 compares the two. |
| C70 | A direction is a pair of offsets (`GDir`); `gDir_nodup`, `gDir_disjoint` show that scopes are distinct; `update_all` shows that writing the log potentials of all groups gives their concatenation, `uniArr_evidence` what evidence for an array means for its variables. |
| C71 | `mem_validConfigs` characterises the table of allowed pairs by `WithinRadius`; the two loops become one over `cEdges` (`foldlM_flatMap`), each step adding one group (`rcnEdge_eq`); an edge that is not as required stops the program (`rcnEdge_ok`). |
| C72 | A `Renaming` maps edges to edges bijectively (`Iso.edges`); `normM`, `stepM` and `iterM` commute with it: enumeration factors because a maximum or sum over configurations does not depend on their order (`enumOut_iso`), logical factors because the two largest values do not depend on the order of the parents as long as they are above the floor `-1e5` of the code (`logicalOut_perm`). |
| C73 | A symmetry of the torus permutes the unordered pairs of neighbours, which are the scopes (`pairs_perm`); together with the symmetry of the table this is a `Renaming` with `Iso` (`pairIso`), to which C72 applies. |
| C74 | The four writes are `uniArr_evidence` and, for `SW`, `uniArr_evidence_short`; the groups are disjoint, so the order does not matter (C25); the joint assignments are those of C68, whose factors have no potentials, and the sum over the variables is taken array by array (`graphVars_sum`). |
| C75 | The slices of the window are computed with the model of NumPy slicing (`rcnWindow_eq`, `slice_axis`); the rows are accepted iff their length is the number of states; the writes are `uniArrs_evidence`, independent of the order by C25; joint assignments and scores are those of C71. |
| C76 | `sumRun_range`: bounds that are consistent with one iteration (`inflow`) hold after all, for any summary with a known spread (`SpreadWithin`); `totalBehind_inflow`: on forests the totals behind messages are consistent, since the sides of the edges around a vertex are disjoint (`side_sum`). OR and AND factors have every state (`logical_full`). Then C37, C38, C55. |
| C77 | The factor graph of a forest of pairwise edges is a forest (`PairNets`, levels from the distance to a root), totals behind messages are bounded by the size of the network (`rcn_facts`), so nothing is clipped (C76) and C38/C59 give MAP states; the MAP states of all networks together are best for every one (`rcn_map_best`). `rcnInfer` is the whole program for one image. |
| C78 | One damped iteration maps an error interval of a message to `d` times itself plus `1 - d` times the sum of those of the messages it is computed from, which is the recurrence of the binomial tail (`lag_succ`, `sumRun_rate`); the totals of C76 are consistent bounds and the numbers of factors behind messages are heights (`factorsBehind_lt`). |
| C79 | The belief of a variable is off by at most the total range of the evidence of its network times the binomial tail (`C78_decode_partial`, `rcn_around`), and a joint assignment that differs from all MAP assignments in a variable is worse by at least `g` (`rcn_map_gap`). |
| C80 | The pixel-wise steps are followed through `maximumFilter_spec`, `localize_spec`, `binarize_eq` and `pool_spec` (`Verif.Lemmas.Image`); the specification (`Detects`) is stated with coordinates and clamping. |
| C81 | Setting up the graph does not depend on the image (`rcnInfer_setup`), so the loop is a map of single inferences; then C79 and C80. |
| C82 | The score is the sum of the beliefs left and the reweighted factors (`jointScore_reweighted`, summing over edges by variables and by factors), for all messages and shares. |
| C83 | The new message is the summary of the factor's weights, up to a constant and the change (`near_message`); sums over configurations split by the state of one position; distributions with nearly equal weights are close (`gibbs_near`). |
| C84 | For every summary (maximum, log-sum-exp) the outgoing message of a factor changes by the terms and a constant, and normalisation keeps this when nothing is clipped (`Moved.step`); induction over iterations. |
| C85 | The arrays after `init` from C70, marginals from C36, then sums over clones; messages of constant matrices by C84. |
| C86 | The factors after `init` are the list of factors of the field (C70), messages by C54, marginals by C36 and closeness of Gibbs distributions (C55). |
| C87 | Beliefs of all samples have the same tree structure and shapes because these depend only on the length of the flat array; functions that treat rows along the last axis one by one commute with stacking (`Rowwise.batch`). Arrays are stacked exactly if they have the same shape (`C87_stack`). |
| C88 | `Lemmas/RbmOdds.lean` shows that textbook max-product on the factors of the machine is the iteration on log odds; `run_textbook_tame` connects it with the code. |
| C89 | `Bumps` for log-sum-exp, `C54_tame_partial` for the distance of messages, and a Lipschitz constant of the logistic function. |
| C90 | log odds of the four messages of a cell as in C88 (`TorusCells.run`), `C35_partial`, `C34_partial`; messages are normalised by their maximum, so their sum is minus the absolute value of their log odds. |
| C91 | induction over iterations: all four messages are monotone in the evidence, because the log odds a factor sends are. |
| C92 | the iteration of `Verif.Spec.Ising` commutes with the symmetries of the torus; odd functions and the checkerboard as gauge. |
| C93 | messages rise through tables by the four functions theorem (Mathlib) for sums and directly for maxima; normalised and clipped messages by cases; induction over iterations on `sumRun`; transfer by `run_textbook_tame` and C54. Above temperature 0 with tables of two variables (`C93_pairs_partial`): the offset of the code's sums, a multiple of the largest term, keeps the order because the states of the other variable are a chain (`chain_cross`). |
| C94 | the recursion of log odds of `Verif.Spec.Rbm` (C88, C89) is monotone, has messages bounded by the weights, and is symmetric in the two groups; `Verif.Lemmas.RbmMono`. |
| C95 | the messages of the compiled graph match those of `Verif.Spec.Deconv` after every iteration (`DeconvGraph.step`), beliefs and decoding follow; `Verif.Lemmas.LogicalRun`, `Deconv{Odds,Run,Init,Setup,Decode}`. |
| C96 | the recursion of `Verif.Spec.Deconv` commutes with the new numbers (`Verif.Spec.DeconvSym`, `Verif.Lemmas.DeconvSym`); C95 carries this over to the program. |
| C97 | the loops of `plotLoop` (Model/ExamplesPlot) write each pixel once (`plotLoop_at`); C95 gives the decoded features. |
| C98 | both runs are textbook runs (C37, C54), in which types of factors do not occur; corresponding textbook messages stay so (`Renaming.Models.sumRun`). |
| C99 | each new message is a function of the incoming messages of its own factor (`facOut_congr`); induction on `n` with shrinking neighbourhoods (`iterM_near`). |
| C100 | the tree is rooted (`unwrap_forest`) and looks like the graph around every walk of fewer than n steps (`unwrap_like`), so messages agree (`sumRun_near`); exactness on trees (C38, C55). |
| C101 | loops to closed forms (`cuts_eq`, `cutEvidence_eq`), scopes distinct as sets (`names_nodup`), tables (`cut_tables`), degree at most D + 2 (`cut_counts`). |
| C102 | induction over textbook iterations (C37): the maximum over configurations is attained at x, and normalising, clipping and damping are monotone. |
| C103 | loops to closed forms (`patches_eq`), degree at most 9 (`patch_degree`), C36 for the marginals, C54 for closeness, C104 for separable potentials with sums over the factors of a variable (`pixel_sum`, `hidden_sum`). |
| C104 | C84 for the messages of every factor, then sums over the edges of a variable (`belief_of_terms`); the joint distribution is a product over variables (`jointWeight_joint`). |
| C105 | `jointWeight_reparam`: belief = message + what the variable sends, so that messages cancel between factors and variables; `bethe_linear`: on consistent numbers the gradient is constant; C83 for consistency at rest. |
| C106 | the weight of an assignment from the roots downwards (`RootedForest.weight_reparam`), whose kernels sum to about 1 (`kernel_sum`) since upward messages are log-sums (`prob_up`). |
| C107 | root the forest at the factor, fix its variables, and sum out all others from the leaves (`RootedForest.cluster_near`); divide by C106. |
| C108 | max and log-sum-exp are homogeneous in scores and temperature, also with the code's offset e^-100000 (`codeSummary_scale`), and so is normalisation as long as nothing is clipped; induction over iterations (`sumRun_scale`). |
| C109 | messages rise in the order of C93; rising normalised messages converge because differences of their entries are monotone and bounded (`rising_converges`); one iteration is Lipschitz, so limits are at rest (`sumRun_fixed`). `C109_pairs_partial` is the code above temperature 0, by `through_reg` as for C93. |
| C110 | what a message says for a state is at most what copies of variables and factors gain in this state (`OutBag`, `run_bag`); supermodularity puts the copies of each factor together to level sets (`Super.add`), so that copies without loose ends gain as much as raising level sets of a joint assignment (`gain_closed`), which gains nothing if it is best. |
| C111 | the distributions of neighbours are the steps of a Markov chain around the ring (`IsRing.kernel`), the weight of a joint assignment is the probability of its closed path (`IsRing.weight_eq`), and sums over closed paths are traces of products of 2 x 2 matrices (`cycle_sum`, `ring_core`, `ring_det`). |
| C112 | both graphs are built (`gates_eq`, `gate_build`) and are renamings of each other (`gRen`, `gRen_models`), so C98 compares their runs; `gate_getBeliefs` reads the arrays, `gateTest_of` the assertions. |
| C113 | without other edges the messages of variables are their evidence (`Separate.tbIn`), so damping is a geometric sum (`faded_step`); C37 and C54 carry it to the code, `gFac_out`, `lFac_out` and `gScope_evidence` to the gates. |
| C114 | `tie_build` and `tie_ready` follow the program to the arrays, C113 gives the beliefs (`tie_beliefs`: the message of a tie is the evidence of the other variable), C35 the decoded states; the rest is arithmetic on `x + c y` and `y + c x` (`tied_iff`). |
| C115 | `pySort_perm`, `pySort_sorted`, `pySort_unique`: sorting permutes, and orders by rank where `<` is a total order; C25 gives (1), C62 the last of the sorted entries (2), C34 the beliefs before sorting (3). |
| C116 | `arraysFlatten`, `enumFlatten`, `logicalFlatten`: the sorted names of the fields; `validate_eq`; `vmapArrays_unfold`, `slice_eq`: the i-th slices are the i-th sample. |
| C117 | the ball is a tree with root r (`rootedForest`), looks like the graph around every variable within n steps (`IsBall.like`), so messages agree (`sumRun_near`) and are not clipped (`IsBall.clip`); exactness on trees; short cycles from two shortest paths (`short_cycle`). |
| C118 | a second graph in which every edge of a variable in D gets a new variable (`cut`) has no cycles (`cut_acyclic`), the same messages to the other variables (`cut_run`, from `SFac.Complete.norm_cut`) and the same max-marginals (`cut_marginal`, from `Joint.fix`); exactness on trees (`tbRun_exact`). |

## 5. Seeded errors

`seeded/LOG.jsonl` has one line per wrong program: a definition of the model edited in a scratch copy, the claim it breaks, and the
theorems whose proofs failed. `theorems_not_proved_because_they_depend_on_these` lists the theorems of the claim that use a failed
lemma. If nothing fails the theorem is tightened and the line says how.
