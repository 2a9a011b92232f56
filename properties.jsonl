{"id": "C01", "title": "NaN fitness always loses", "statement": "When exactly one of two individuals of a scalar problem has a NaN fitness, the NaN one compares as strictly worse (`<` true, `>` false, `>=` false) and the other as strictly better, for maximisation and minimisation and whatever random coin is drawn; when both are NaN the outcome of `<` is exactly the coin.", "quantifier": "every pair of scalar fitness values (finite, infinite, NaN), both optimisation directions, every coin outcome", "why_tests_cant": "NaN comparisons depend on a random coin and on four operators derived by total_ordering; tests sample a few values", "anchors": ["leap_ec/problem.py:ScalarProblem.worse_than", "leap_ec/problem.py:ScalarProblem.equivalent", "leap_ec/individual.py:Individual.__lt__"]}
{"id": "C02", "title": "Scalar ordering is a strict weak order in the optimisation direction", "statement": "On non-NaN fitnesses `a < b` for two individuals of one scalar problem is irreflexive, asymmetric, transitive and negatively transitive, holds exactly when b's value is better in the problem's direction, and reverses when `maximize` is flipped.", "quantifier": "all non-NaN scalar fitness values and both directions", "why_tests_cant": "sorting and selection need the law for all triples; a test only sees some triples", "anchors": ["leap_ec/problem.py:ScalarProblem.worse_than", "leap_ec/individual.py:Individual.__lt__"]}
{"id": "C03", "title": "The six comparison operators agree with one another", "statement": "For individuals of a scalar problem `a > b` should hold exactly when `b < a`, and exactly one of `a<b`, `a==b`, `a>b` should hold. (False of the code for Python floats, because equality is a relative tolerance: the disagreement region is characterised exactly.)", "quantifier": "all pairs of non-NaN scalar fitnesses, Python float and non-float", "why_tests_cant": "the disagreement only appears for values within 1e-9 relative distance", "anchors": ["leap_ec/problem.py:ScalarProblem.equivalent", "leap_ec/individual.py:total_ordering"]}
{"id": "C04", "title": "Cloning yields an independent, unevaluated offspring", "statement": "`clone()` returns an individual whose genome equals the original's, whose fitness is None, whose identity is new, whose parent set is exactly the original's identity, and later in-place changes to the clone's genome never change the original's genome or fitness.", "quantifier": "all object heaps, all individuals, all later in-place genome writes through the clone", "why_tests_cant": "aliasing bugs show only under particular write histories", "anchors": ["leap_ec/individual.py:Individual.clone", "leap_ec/ops.py:clone"]}
{"id": "C05", "title": "A reproduction pipeline that clones never alters its parents", "statement": "For any chain select -> clone -> (mutation | crossover)* -> evaluate -> pool, no individual present before the pipeline has its genome, fitness or lineage changed, whatever is selected (including the same parent repeatedly) and whatever random numbers are drawn.", "quantifier": "all parent heaps, all selection sequences, all operator chains and random draws, every pool size", "why_tests_cant": "the number of pipelines and draws is unbounded and the failure is an aliasing effect", "anchors": ["leap_ec/ops.py:clone", "leap_ec/ops.py:pool", "leap_ec/ops.py:Crossover", "leap_ec/ops.py:evaluate", "leap_ec/binary_rep/ops.py:mutate_bitflip"]}
{"id": "C06", "title": "Evaluation always scores the current genome", "statement": "After `evaluate()` the stored fitness is the problem's score of the decoding of the genome held at that moment, regardless of any previously cached phenome.", "quantifier": "all individuals, cached phenomes, decoders and problems", "why_tests_cant": "a stale cache is only visible for particular clone/mutate/evaluate histories", "anchors": ["leap_ec/individual.py:Individual.evaluate", "leap_ec/individual.py:Individual.evaluate_imp", "leap_ec/individual.py:Individual.decode", "leap_ec/ops.py:evaluate"]}
{"id": "C07", "title": "Grouped evaluation agrees with one-by-one evaluation", "statement": "`grouped_evaluate` gives every individual the fitness that evaluating it alone would give, for every chunk size, and returns the same individuals in order. (False of the code for clones of evaluated parents: it scores the cached parental phenome.)", "quantifier": "all populations, chunk sizes, problems accepting batches", "why_tests_cant": "needs every chunk size and clone/mutate history", "anchors": ["leap_ec/ops.py:grouped_evaluate", "leap_ec/individual.py:Individual.phenome", "leap_ec/individual.py:Individual.clone"]}
{"id": "C08", "title": "A failing evaluation never escapes a robust individual", "statement": "Evaluating a RobustIndividual never raises; if the problem raises, fitness is NaN, `is_viable` is False and the exception is stored; otherwise the fitness is the problem's value and `is_viable` is True.", "quantifier": "all problems (raising or not), all prior states", "why_tests_cant": "every possible failure and prior state cannot be enumerated", "anchors": ["leap_ec/individual.py:RobustIndividual.evaluate", "leap_ec/distrib/individual.py:DistributedIndividual", "leap_ec/distrib/evaluate.py:evaluate"]}
{"id": "C09", "title": "Truncation selection keeps the best", "statement": "`truncation_selection(size)` returns min(size, n) individuals drawn without duplication from the offspring (plus parents for mu+lambda), best first, and no individual left out is better than one kept; ties keep the earlier one.", "quantifier": "all offspring and parent lists, all sizes, any strict weak order or key whose == holds exactly between those of the same rank (tolerance and coins: C125)", "why_tests_cant": "all sizes, ties and list orders", "anchors": ["leap_ec/ops.py:truncation_selection"]}
{"id": "C10", "title": "Elitist survival keeps size and never loses the best", "statement": "`elitist_survival(k)` returns exactly as many individuals as offspring came in; each of the result comes from offspring or the k best parents; and with k>=1 the best of the result is at least as good as every parent and every offspring.", "quantifier": "all offspring, parents, k and orderings whose == holds exactly between those of the same rank (tolerance and coins: C125)", "why_tests_cant": "all sizes, ties and k", "anchors": ["leap_ec/ops.py:elitist_survival"]}
{"id": "C11", "title": "Tournament winners are the best of those sampled", "statement": "Each individual yielded by `tournament_selection` is one of the k sampled, none of the sampled is better (worse with select_worst), and the reported index is its position in the population.", "quantifier": "all populations, tournament sizes, random index draws, orderings", "why_tests_cant": "random draws and ties are unbounded", "anchors": ["leap_ec/ops.py:tournament_selection"]}
{"id": "C12", "title": "Insertion selection lets every child compete", "statement": "`insertion_selection` should let each offspring compete with a random parent and keep the better one at that place, never losing size or best. (False of the code: only the first offspring ever competes, and an empty offspring list raises.)", "quantifier": "all parent and offspring lists and random indices", "why_tests_cant": "tests with one child cannot see it", "anchors": ["leap_ec/ops.py:insertion_selection"]}
{"id": "C13", "title": "Cyclic selection is fair", "statement": "`naive_cyclic_selection` yields the population in order forever; `cyclic_selection` yields each individual exactly once in every block of n draws, whatever shuffles occur.", "quantifier": "all populations, all numbers of draws, all shuffles", "why_tests_cant": "infinite generators", "anchors": ["leap_ec/ops.py:naive_cyclic_selection", "leap_ec/ops.py:cyclic_selection"]}
{"id": "C14", "title": "Pool collects exactly the requested number", "statement": "`pool(size)` over any pipeline returns exactly `size` individuals in the order produced and pulls exactly that many; if upstream ends early it raises rather than return fewer.", "quantifier": "all iterators, sizes", "why_tests_cant": "unbounded sizes and upstream behaviour", "anchors": ["leap_ec/ops.py:pool", "leap_ec/ops.py:random_selection"]}
{"id": "C15", "title": "Fitness-proportional weights", "statement": "`compute_population_values` computes (value+offset)^exponent; with offset 'pop-min' all weights are non-negative and the minimum gets 0; proportional selection raises on a negative weight and otherwise uses weights that are non-negative and sum to 1 (when the total is positive), in proportion to value.", "quantifier": "all populations of exact fitness values, offsets, exponents", "why_tests_cant": "all values and signs", "anchors": ["leap_ec/ops.py:compute_population_values", "leap_ec/ops.py:proportional_selection"]}
{"id": "C16", "title": "Stochastic universal sampling is fair", "statement": "In one pass of n points `sus_selection` selects individual i either floor or ceil of n*v_i/total times, in population order, never an individual of weight 0. (The last clause is false of the code when the random start is exactly 0: then the last individual is selected first.)", "quantifier": "all non-negative weight vectors, n>0, all random starts in [0,total/n)", "why_tests_cant": "continuum of random starts", "anchors": ["leap_ec/ops.py:sus_selection"]}
{"id": "C17", "title": "Uniform crossover conserves genes per position", "statement": "For equal-length genomes each position of the two children holds exactly the two parental genes of that position, swapped exactly where the mask is set; lengths are kept; for unequal lengths it raises instead of corrupting.", "quantifier": "all genome pairs and masks", "why_tests_cant": "all lengths and masks", "anchors": ["leap_ec/ops.py:UniformCrossover.recombine"]}
{"id": "C18", "title": "N-point crossover conserves genes and uses the given cut points", "statement": "For equal-length genomes the children are the alternating sections of the parents between the sorted cut points: per-position gene conservation, lengths kept, number of switches as requested; too-short genomes raise RuntimeError. (For a longer second parent genes are silently lost.)", "quantifier": "all genome pairs, all numbers of points and all point draws", "why_tests_cant": "all lengths and draws", "anchors": ["leap_ec/ops.py:NAryCrossover.recombine"]}
{"id": "C19", "title": "The crossover operator neither loses nor duplicates children", "statement": "Over any number of generator restarts with persist_children=True the stream of yielded children is exactly the concatenation of pairs produced; both children have fitness None and the union of lineages when recombined and are untouched otherwise; without persistence only a second child pending when the generator is dropped is lost.", "quantifier": "all sequences of pulls and restarts, all draws", "why_tests_cant": "history dependent", "anchors": ["leap_ec/ops.py:Crossover.__call__"]}
{"id": "C20", "title": "Bit-flip mutation", "statement": "Bit-flip mutation keeps the genome length, keeps a binary genome binary, flips exactly the positions drawn, and applying it twice with the same draw restores the genome.", "quantifier": "all binary genomes and masks", "why_tests_cant": "2^n masks", "anchors": ["leap_ec/binary_rep/ops.py:genome_mutate_bitflip", "leap_ec/binary_rep/ops.py:mutate_bitflip"]}
{"id": "C21", "title": "Integer resampling mutation respects bounds", "statement": "`mutate_randint` only changes drawn positions, and each drawn gene ends within its own inclusive [low, high]; genomes within bounds stay within bounds; mismatched bounds raise.", "quantifier": "all genomes, bounds, masks, draws", "why_tests_cant": "all values", "anchors": ["leap_ec/int_rep/ops.py:individual_mutate_randint", "leap_ec/int_rep/initializers.py:create_int_vector"]}
{"id": "C22", "title": "Binomial mutation respects bounds", "statement": "`mutate_binomial` always returns a genome of the same length with every gene within its hard bounds; genes not drawn and already in bounds are unchanged; the derived binomial parameter has the requested standard deviation.", "quantifier": "all genomes, bounds with low<=high, masks, binomial draws", "why_tests_cant": "all values", "anchors": ["leap_ec/int_rep/ops.py:genome_mutate_binomial", "leap_ec/int_rep/ops.py:_binomial_p_from_std"]}
{"id": "C23", "title": "Gaussian mutation and hard bounds", "statement": "`apply_hard_bounds` puts every gene in [low, high], leaves in-bounds genes alone, is idempotent and monotone; Gaussian mutation yields genes within bounds and without bounds touches only drawn positions.", "quantifier": "all genomes, bounds (scalar or per gene), masks, noise", "why_tests_cant": "all values", "anchors": ["leap_ec/real_rep/ops.py:apply_hard_bounds", "leap_ec/real_rep/ops.py:genome_mutate_gaussian"]}
{"id": "C24", "title": "Mutation rate arguments are validated", "statement": "Each mutation operator accepts exactly one of expected_num_mutations/probability: both or neither raises ValueError; an out-of-range probability is rejected; expected number e on length n gives probability e/n.", "quantifier": "all argument combinations and genome lengths", "why_tests_cant": "infinite argument space", "anchors": ["leap_ec/binary_rep/ops.py:mutate_bitflip", "leap_ec/int_rep/ops.py:mutate_binomial", "leap_ec/ops.py:compute_expected_probability", "leap_ec/ops.py:random_bernoulli_vector"]}
{"id": "C25", "title": "Segment operators keep the genome well formed", "statement": "Segmented mutation keeps the number and lengths of segments; add_segment inserts exactly one new segment and keeps the others in order; remove_segment deletes at most one and never the last one; copy_segment adds one equal segment. The copy should be independent of the original (false of the code: both entries are the same array).", "quantifier": "all segmented genomes, draws, later in-place mutations", "why_tests_cant": "aliasing and draw dependent", "anchors": ["leap_ec/segmented_rep/ops.py:add_segment", "leap_ec/segmented_rep/ops.py:remove_segment", "leap_ec/segmented_rep/ops.py:copy_segment", "leap_ec/segmented_rep/ops.py:apply_mutation"]}
{"id": "C26", "title": "Binary-to-integer decoding is exact, bijective and history-free", "statement": "Decoding yields for each segment the big-endian value in [0, 2^k-1], is a bijection between k-bit segments and that range, and does not depend on what was decoded before. (History independence is false of the code for zero-length segments.)", "quantifier": "all descriptors, genomes and previous decode histories", "why_tests_cant": "histories and 2^n genomes", "anchors": ["leap_ec/binary_rep/decoders.py:BinaryToIntDecoder.decode"]}
{"id": "C27", "title": "Gray decoding is a bijection with the adjacency property", "statement": "Gray decoding inverts x -> x xor (x>>1), stays within the same range, and the codes of consecutive integers differ in exactly one bit.", "quantifier": "all segment lengths and values", "why_tests_cant": "2^n values for every n", "anchors": ["leap_ec/binary_rep/decoders.py:BinaryToIntGreyDecoder"]}
{"id": "C28", "title": "Binary-to-real decoding covers the interval", "statement": "Every decoded value lies in [lower, upper]; all-zeros decodes to lower and all-ones to upper; consecutive codes are equally spaced; malformed segment descriptors raise.", "quantifier": "all segments, bounds, genomes", "why_tests_cant": "2^n genomes, all bounds", "anchors": ["leap_ec/binary_rep/decoders.py:BinaryToRealDecoderCommon"]}
{"id": "C29", "title": "Binary benchmark functions have the advertised values and optima", "statement": "MaxOnes counts ones (or matches with a target), LeadingOnes is the length of the longest all-ones (matching) prefix, DeceptiveTrap has its unique optimum at all ones while its slope points to all zeros, TwoMax is max(#ones,#zeros) with exactly two optima.", "quantifier": "all binary phenomes of all lengths", "why_tests_cant": "2^n inputs for every n", "anchors": ["leap_ec/binary_rep/problems.py:MaxOnes", "leap_ec/binary_rep/problems.py:LeadingOnes", "leap_ec/binary_rep/problems.py:DeceptiveTrap", "leap_ec/binary_rep/problems.py:TwoMax"]}
{"id": "C30", "title": "Generation counter", "statement": "After n calls `inc_generation` has returned start+1..start+n in order, the context always holds the last value returned (start before any call), and each callback is called once per call with the new value in order.", "quantifier": "all starts, call counts, callback lists", "why_tests_cant": "all histories", "anchors": ["leap_ec/util.py:inc_generation"]}
{"id": "C31", "title": "Birth counter", "statement": "After any history of increments and decrements the counter equals start + sum(increments) - #decrements and the context mirrors it.", "quantifier": "all histories", "why_tests_cant": "all histories", "anchors": ["leap_ec/util.py:inc_births"]}
{"id": "C32", "title": "Birth identifiers are unique", "statement": "`birth_brander` gives each unbranded individual the next unused number and never re-brands. Uniqueness over everything passing through is false of the code for clones of branded parents, and branding a generator fails after the first element.", "quantifier": "all histories of individuals and calls", "why_tests_cant": "history dependent", "anchors": ["leap_ec/util.py:birth_brander"]}
{"id": "C33", "title": "Step source selection", "statement": "`get_step` returns the generation or birth count as requested; requesting both, or leaving it open when both or neither counter exists, is rejected; otherwise the only available one is used.", "quantifier": "all contexts and flag combinations", "why_tests_cant": "all combinations with unbounded counts", "anchors": ["leap_ec/util.py:get_step"]}
{"id": "C34", "title": "Generational EA accounting and elitism", "statement": "`generational_ea` applies the pipeline once per generation, exactly max_generations - start times unless the stop condition holds earlier, ends with the context generation equal to the number reached, keeps the offspring count, and with k_elites>=1 the best fitness never gets worse from one generation to the next.", "quantifier": "all pipelines, populations, stop conditions, lengths of run", "why_tests_cant": "all histories", "anchors": ["leap_ec/algorithm.py:generational_ea"]}
{"id": "C35", "title": "Multi-population EA round robin", "statement": "`multi_population_ea` steps every sub-population once per generation in index order, with context.current_subpopulation equal to the index being processed, keeps the number of sub-populations, and runs the same number of steps for each.", "quantifier": "all numbers of populations, pipelines, run lengths", "why_tests_cant": "all histories", "anchors": ["leap_ec/algorithm.py:multi_population_ea"]}
{"id": "C36", "title": "Random search budget", "statement": "`random_search` evaluates exactly `evaluations` individuals (for evaluations>=1) and returns them all in order. (For 0 it still evaluates one.)", "quantifier": "all budgets and pipelines returning one individual", "why_tests_cant": "all budgets", "anchors": ["leap_ec/algorithm.py:random_search"]}
{"id": "C37", "title": "Island migration", "statement": "Migration keeps every island's size, sends at most one emigrant clone per island per migration_gap generations to a neighbour in the topology with the sponsor's fitness, processes each immigrant exactly once on arrival, replaces only individuals that are not better, so that no island's best gets worse; none are lost in transit.", "quantifier": "all topologies, schedules of islands, populations, draws", "why_tests_cant": "all histories", "anchors": ["leap_ec/ops.py:migrate"]}
{"id": "C38", "title": "Averaged fitness", "statement": "`AverageFitnessProblem` returns the mean of exactly n evaluations per phenome; batch evaluation returns one mean per phenome, in order, equal to the single evaluation for a deterministic problem.", "quantifier": "all n>0, batches, wrapped problems", "why_tests_cant": "all batch sizes", "anchors": ["leap_ec/problem.py:AverageFitnessProblem"]}
{"id": "C39", "title": "Alternating problem schedule", "statement": "`AlternatingProblem` uses problem floor(generation/modulo) mod k: each problem is active for `modulo` consecutive generations in cyclic order.", "quantifier": "all generations, moduli, problem lists", "why_tests_cant": "unbounded generations", "anchors": ["leap_ec/problem.py:AlternatingProblem"]}
{"id": "C40", "title": "Cooperative evaluation assembles the right team", "statement": "Each trial combines exactly one collaborator per sub-population in order, with the evaluated genome at its own sub-population's position; the fitness is the mean over exactly num_trials trials.", "quantifier": "all numbers of populations, trials, selector streams", "why_tests_cant": "all selector streams", "anchors": ["leap_ec/problem.py:CooperativeProblem", "leap_ec/ops.py:CooperativeEvaluate"]}
{"id": "C41", "title": "Asynchronous steady-state birth budget", "statement": "For every completion order, `steady_state` stops with max_births <= counted births < max_births + (offspring per step); every submitted individual is inserted exactly once; when nonviable individuals are not counted, the number of viable evaluations is init + births.", "quantifier": "all completion orders, evaluation outcomes, pipelines yielding k>=1 offspring", "why_tests_cant": "all interleavings of worker completions", "anchors": ["leap_ec/distrib/asynchronous.py:steady_state"]}
{"id": "C42", "title": "Asynchronous insertion keeps the population bounded and the best viable", "statement": "Both inserters never exceed the maximum size, add one while below it, replace only something not viable or strictly worse, and so never lose the best viable individual; the greedy one replaces a NaN-fitness individual first.", "quantifier": "all populations, insertion histories, random draws and coins", "why_tests_cant": "all histories", "anchors": ["leap_ec/distrib/asynchronous.py:tournament_insert_into_pop", "leap_ec/distrib/asynchronous.py:greedy_insert_into_pop", "leap_ec/distrib/asynchronous.py:replace_if"]}
{"id": "C43", "title": "Pareto dominance is a strict partial order", "statement": "Multi-objective `worse_than` is exactly Pareto dominance in the declared directions: irreflexive, asymmetric, transitive; `equivalent` is exactly mutual non-dominance; `>` on individuals is exactly dominance.", "quantifier": "all objective vectors and directions", "why_tests_cant": "all triples of vectors", "anchors": ["leap_ec/multiobjective/problems.py:MultiObjectiveProblem"]}
{"id": "C44", "title": "Fast non-dominated sort assigns the true Pareto ranks", "statement": "After `fast_nondominated_sort` rank 1 is exactly the non-dominated individuals, and rank r+1 those non-dominated after removing ranks <= r; with parents given, both lists are ranked together. (False of the code when one object occurs twice.)", "quantifier": "all populations of distinct individuals, all strict partial orders", "why_tests_cant": "all partial orders", "anchors": ["leap_ec/multiobjective/ops.py:fast_nondominated_sort"]}
{"id": "C45", "title": "Rank ordinal sort agrees with the true Pareto ranks", "statement": "`rank_ordinal_sort` assigns to every individual (including duplicates in objective space) the same rank as repeated removal of the non-dominated front.", "quantifier": "all objective matrices and directions", "why_tests_cant": "all matrices", "anchors": ["leap_ec/multiobjective/ops.py:rank_ordinal_sort"]}
{"id": "C46", "title": "Crowding distance", "statement": "Within a rank, extreme individuals of each objective get infinite distance, interior ones the sum of normalised neighbour gaps (non-negative), and no individual is lost. (The last is false of the code: a rank whose members all share one objective vector - in particular a singleton rank - is dropped.)", "quantifier": "all ranked populations", "why_tests_cant": "all populations", "anchors": ["leap_ec/multiobjective/ops.py:per_rank_crowding_calc", "leap_ec/multiobjective/ops.py:crowding_distance_calc"]}
{"id": "C47", "title": "NSGA-II keeps size and the first front", "statement": "One NSGA-II generation returns exactly the parent count, and discards a rank-1 individual only if rank-1 individuals fill the whole result. (False of the code through the crowding-distance loss; proved when every rank spans a non-zero range.)", "quantifier": "all parent and offspring populations", "why_tests_cant": "all populations", "anchors": ["leap_ec/multiobjective/nsga2.py:generalized_nsga_2", "leap_ec/multiobjective/ops.py:sort_by_dominance"]}
{"id": "C48", "title": "Incremental non-dominated level update", "statement": "Inserting an individual with `enlu_inds_rank` gives the same layers as sorting the enlarged population from scratch. (False of the code from three objectives on.)", "quantifier": "all layered populations, all new individuals, any number of objectives", "why_tests_cant": "needs special geometry of at least three objectives", "anchors": ["leap_ec/multiobjective/asynchronous.py:enlu_inds_rank"]}
{"id": "C49", "title": "CGP genomes stay feed-forward", "statement": "Genomes created by the CGP initialiser or mutated within the decoder's bounds always satisfy `check_constraints`, and every genome that satisfies it decodes to a graph whose edges go from lower to higher node ids (acyclic).", "quantifier": "all CGP shapes, genomes, mutation histories", "why_tests_cant": "all shapes and genomes", "anchors": ["leap_ec/executable_rep/cgp.py:CGPDecoder"]}
{"id": "C50", "title": "CGP pruning and execution", "statement": "Pruning a decoded CGP graph never changes the outputs for any input; execution depends only on the inputs given, not on earlier calls.", "quantifier": "all valid genomes, inputs, call histories", "why_tests_cant": "all programs and inputs", "anchors": ["leap_ec/executable_rep/cgp.py:CGPDecoder.prune_graph", "leap_ec/executable_rep/cgp.py:CGPExecutable.__call__"]}
{"id": "C51", "title": "Pitt rule matching", "statement": "If some rule matches the input exactly, the executed action is that of the lowest-numbered exactly matching rule, deterministically; otherwise it is that of some rule at minimal distance; wildcards always match.", "quantifier": "all rule sets and inputs, all random choices", "why_tests_cant": "all inputs and draws", "anchors": ["leap_ec/executable_rep/rules.py:PittRulesExecutable"]}
{"id": "C52", "title": "Best-so-far tracking", "statement": "Best-so-far probes return an individual seen so far that no individual seen so far beats under `>`, and their value never worsens; periodic CSV rows appear exactly at generations divisible by modulo while the best-so-far still accounts for all generations.", "quantifier": "all histories of populations", "why_tests_cant": "all histories", "anchors": ["leap_ec/probe.py:BestSoFarProbe", "leap_ec/probe.py:BestSoFarIterProbe", "leap_ec/probe.py:FitnessStatsCSVProbe"]}
{"id": "C53", "title": "Diversity metrics", "statement": "The pairwise squared-distance metric equals the sum of squared distances over all ordered pairs; the fixation count is the number of loci at which all individuals agree; sum of variances is zero exactly for a converged population.", "quantifier": "all populations of equal-length genomes", "why_tests_cant": "all populations", "anchors": ["leap_ec/probe.py:pairwise_squared_distance_metric", "leap_ec/probe.py:sum_of_variances_metric", "leap_ec/probe.py:num_fixated_metric"]}
{"id": "C54", "title": "Neural network decoding", "statement": "Decoding a genome into layer weight matrices uses every gene exactly once in order (flattening gives the genome back), layer shapes chain, wrong lengths are rejected, and execution of a decoded network on an input of the right size always yields an output of the declared size.", "quantifier": "all shapes, genomes, inputs, activation functions", "why_tests_cant": "all shapes", "anchors": ["leap_ec/executable_rep/neural_network.py:SimpleNeuralNetworkDecoder", "leap_ec/executable_rep/neural_network.py:SimpleNeuralNetworkExecutable"]}
{"id": "C55", "title": "Truth-table fitness", "statement": "`TruthTableProblem` enumerates all 2^n inputs exactly once; fitness lies in [0,1], equals the fraction of agreeing rows and is 1 exactly when the program computes the target function.", "quantifier": "all n, programs and functions", "why_tests_cant": "2^n inputs for every n", "anchors": ["leap_ec/executable_rep/problems.py:TruthTableProblem"]}
{"id": "C56", "title": "Landscape feature ratios", "statement": "convex_p is the fraction of tests with delta below the threshold and lies in [0,1]. linear_p should be the fraction of tests with |delta| under a small tolerance; in the code it is 0 on every landscape.", "quantifier": "all delta lists and accepted thresholds", "why_tests_cant": "a constant-zero feature looks plausible on sampled landscapes", "anchors": ["leap_ec/landscape_features/exploratory.py:ELAConvexity"]}
{"id": "C57", "title": "Empirical distributions", "statement": "`collect_distribution` counts sum to the number of samples and each count is the number of occurrences; `_normalize_dicts` gives both dictionaries the same keys in the same order without changing existing counts.", "quantifier": "all sample streams and dictionaries", "why_tests_cant": "all streams", "anchors": ["leap_ec/statistical_helpers.py:collect_distribution", "leap_ec/statistical_helpers.py:_normalize_dicts"]}
{"id": "C58", "title": "Operator type checking", "statement": "The operator decorators let a call through exactly when input and output have the declared list/iterator kind, and raise ValueError otherwise, never altering the value passed.", "quantifier": "all inputs and wrapped operators", "why_tests_cant": "all operators", "anchors": ["leap_ec/ops.py:iteriter_op", "leap_ec/ops.py:listlist_op", "leap_ec/ops.py:listiter_op", "leap_ec/ops.py:iterlist_op"]}
{"id": "C59", "title": "Problem wrappers", "statement": "TranslatedProblem moves the optimum to the offset, ScaledProblem maps the new bounds onto the old, MatrixTransformedProblem composes with the matrix, FitnessOffsetProblem shifts values without changing any comparison; dimension mismatches are rejected.", "quantifier": "all problems, offsets, matrices, phenomes", "why_tests_cant": "all inputs", "anchors": ["leap_ec/real_rep/problems.py:TranslatedProblem", "leap_ec/real_rep/problems.py:ScaledProblem", "leap_ec/real_rep/problems.py:MatrixTransformedProblem", "leap_ec/problem.py:FitnessOffsetProblem"]}
{"id": "C60", "title": "Seeded initialisation", "statement": "An initialiser built by `initialize_seeded` returns the seeds in order, each once, then only fresh individuals.", "quantifier": "all seed lists and call counts", "why_tests_cant": "all histories", "anchors": ["leap_ec/contrib/transfer/sequential.py:initialize_seeded"]}
{"id": "C61", "title": "Parsimony pressure", "statement": "Lexical parsimony orders by fitness first and by shorter genome only among equal fitness; Koza parsimony orders by fitness penalised per gene; both respect the optimisation direction.", "quantifier": "all fitnesses, lengths, penalties", "why_tests_cant": "all values", "anchors": ["leap_ec/parsimony.py:lexical_parsimony", "leap_ec/parsimony.py:koza_parsimony"]}
{"id": "C62", "title": "Initialisers respect lengths and bounds", "statement": "Binary, integer, real and segmented initialisers give the requested number of genes or segments; integer genes lie within inclusive bounds, real genes in [low, high), and reversed integer bounds are refused.", "quantifier": "all bounds, lengths, random draws", "why_tests_cant": "all draws and bounds", "anchors": ["leap_ec/int_rep/initializers.py:create_int_vector", "leap_ec/real_rep/initializers.py:create_real_vector", "leap_ec/binary_rep/initializers.py:create_binary_sequence", "leap_ec/segmented_rep/initializers.py:create_segmented_sequence"]}
{"id": "C63", "title": "External-process evaluation matches answers to phenomes", "statement": "A problem evaluated by an external program sends one line per phenome, in order, and returns exactly the numbers the program printed, one per phenome in the same order; a failing program, a non-numeric line or a wrong number of lines raises instead of mis-assigning fitnesses.", "quantifier": "all programs (as functions from input to exit status and output), phenomes", "why_tests_cant": "all outputs of all programs", "anchors": ["leap_ec/problem.py:ExternalProcessProblem"]}
{"id": "C64", "title": "Population creation", "statement": "`create_population(n, ...)` returns exactly n new individuals, unevaluated and without parents, each holding the genome the initialiser returned for it (in order), with pairwise different identities and unshared genomes; existing individuals are untouched, and an initialiser's exception propagates.", "quantifier": "all n, initialisers, random states", "why_tests_cant": "all sizes, all initialisers", "anchors": ["leap_ec/individual.py:Individual.create_population"]}
{"id": "C65", "title": "Synchronous distributed evaluation keeps the order", "statement": "Evaluating a population on the cluster and gathering the results gives one evaluated individual per submitted individual, in the order of the population, whatever order the workers finish in.", "quantifier": "all populations, evaluation functions, completion orders", "why_tests_cant": "all worker schedules", "anchors": ["leap_ec/distrib/synchronous.py:eval_population", "leap_ec/distrib/synchronous.py:eval_pool"]}
{"id": "C66", "title": "Steady-state NSGA-II inserter over its history", "statement": "After any sequence of insertions, the population has min(pop_size, number of insertions) different individuals, all of them inserted ones; rank 1 is exactly its Pareto front; distances are the crowding distances within the layers; when the population is full, exactly one individual of the last layer with least crowding distance leaves.", "quantifier": "all histories of insertions of different individuals, all population sizes, any number of objectives", "why_tests_cant": "all histories; the ranks below the first can be wrong from three objectives on, so that the first stays right needs an argument", "anchors": ["leap_ec/multiobjective/asynchronous.py:ENLUInserter", "leap_ec/multiobjective/asynchronous.py:steady_state_nsga_2"]}
{"id": "C67", "title": "CSV probes write complete, aligned rows", "statement": "Every row of a fitness-statistics probe has a cell for each column of its header, in the header's order, holding the job, notes, generation, best fitness so far, mean, deviation, minimum and maximum of the population's fitness and the extra metrics; an attributes probe writes one row per recorded individual in population order, with that individual's attributes under the declared columns, refuses individuals that lack a declared attribute, and returns the population unchanged.", "quantifier": "all probe configurations (job, notes, extra metrics, attribute lists without duplicate names), all populations and all generation numbers", "why_tests_cant": "Alignment must hold for every combination of optional columns and every population; tests fix one configuration.", "anchors": ["leap_ec/probe.py:FitnessStatsCSVProbe", "leap_ec/probe.py:AttributesCSVProbe"]}
{"id": "C68", "title": "Random rotations", "statement": "MatrixTransformedProblem.random_orthonormal applies an orthonormal matrix obtained from the random draw by Gram-Schmidt: lengths are kept, every optimum is moved to exactly one place and none is made or lost. A singular draw raises an AssertionError instead of giving a wrong matrix. Rotations exist from two dimensions on; in one dimension the call always fails.", "quantifier": "all draws, dimensions and wrapped problems", "why_tests_cant": "all real matrices", "anchors": ["leap_ec/real_rep/problems.py:random_orthonormal_matrix", "leap_ec/real_rep/problems.py:MatrixTransformedProblem"]}
{"id": "C69", "title": "Control problems evaluate by runs in the environment", "statement": "EnvironmentProblem.evaluate gives fitness f exactly when there are `runs` runs, each from a fresh reset, in which the controller is fed every observation in order and its actions are applied in order, each run stopping after `steps` steps or, with stop_on_done, at the first step that reports the end of the episode; f is the mean total reward, or the mean number of observations. Survival fitness lies between 2 and steps + 1. Non-positive runs or steps, or another fitness type, are refused. The number of dimensions of a space is the product of its shape, added up over a tuple's parts; num_inputs and num_outputs are that number.", "quantifier": "all environments and controllers (as arbitrary state transformers), all settings, all lengths of episode", "why_tests_cant": "all environments and episodes", "anchors": ["leap_ec/executable_rep/problems.py:EnvironmentProblem"]}
{"id": "C70", "title": "Keyboard controller follows the keys", "statement": "The keyboard executable's action is that of the last key pressed until a key with the same action is released, and 0 otherwise, whatever the sequence of key events; it serves only a single output. By default digit keys stand for their digits.", "quantifier": "all sequences of key presses and releases, all keymaps", "why_tests_cant": "all event histories", "anchors": ["leap_ec/executable_rep/executable.py:KeyboardExecutable"]}
{"id": "C71", "title": "Activation functions", "statement": "sigmoid is strictly increasing, lies strictly between 0 and 1 and sigmoid(-x) = 1 - sigmoid(x); relu is the larger of 0 and its argument; softmax of a non-empty vector is a probability distribution with exp(x_i)/sum exp(x_j), it keeps the order of the entries, and shifting the input changes nothing; on an empty vector it raises.", "quantifier": "all real numbers and vectors", "why_tests_cant": "all reals, all lengths", "anchors": ["leap_ec/executable_rep/neural_network.py:sigmoid", "leap_ec/executable_rep/neural_network.py:softmax", "leap_ec/executable_rep/neural_network.py:relu"]}
{"id": "C72", "title": "Benchmark functions have the advertised values and optima", "statement": "For every vector, Spheroid, Rastrigin, Rosenbrock, Step, NoisyQuartic, Shekel, Griewank, Ackley, Weierstrass, Langermann, Lunacek, Schwefel, Gaussian and CosineFamily evaluate to the documented formula, refuse what they document to refuse, and have the documented global optima: the origin and only it for Spheroid, Rastrigin, Griewank, Ackley and the noise-free quartic, the vector of ones and only it for Rosenbrock, mu_1 and only it for Lunacek, and the grid of G_i points per dimension for the cosine family.", "quantifier": "all real vectors of every dimension, all admissible parameters", "why_tests_cant": "all reals in all dimensions; tests look at a handful of points", "anchors": ["leap_ec/real_rep/problems.py"]}
{"id": "C73", "title": "The quadratic family has the minima it was built with", "statement": "A ParabaloidProblem is the quadratic form x^T (R^T D R) x and refuses a matrix that is not diagonal. A QuadraticFamilyProblem is the least of (x-p_i)^T R_i^T D_i R_i (x-p_i) + v_i; with positive diagonals and rotations its least value is the least v_i and it is taken exactly at the centres p_i that have it. QuadraticFamilyProblem.generate, with positive widths and positive fitness bounds, gives a problem whose least value 0 is taken exactly at the first num_global_optima centres; the recorded global_optimum is one of them and lies within the problem's bounds.", "quantifier": "all dimensions, numbers of basins, matrices, centres, fitness values, all points and all draws", "why_tests_cant": "all reals, all dimensions, all draws", "anchors": ["leap_ec/real_rep/problems.py:ParabaloidProblem", "leap_ec/real_rep/problems.py:QuadraticFamilyProblem"]}
{"id": "C74", "title": "Multiobjective benchmarks have the advertised Pareto sets", "statement": "SCH and ZDT1 to ZDT6 give the documented pairs and, with check_phenome, refuse phenomes out of bounds. Among all admissible points exactly these are Pareto-optimal: 0 <= x <= 2 for SCH; those with all coordinates but the first 0 for ZDT1, ZDT2, ZDT4 and ZDT6; for ZDT3 those of them that no smaller first coordinate beats; all ones after the first 30 bits for ZDT5.", "quantifier": "all real points (bit strings for ZDT5) of every number of dimensions from 2 on", "why_tests_cant": "optimality quantifies over all other points", "anchors": ["leap_ec/multiobjective/problems.py:SCHProblem", "leap_ec/multiobjective/problems.py:ZDT1Problem", "leap_ec/multiobjective/problems.py:ZDT2Problem", "leap_ec/multiobjective/problems.py:ZDT3Problem", "leap_ec/multiobjective/problems.py:ZDT4Problem", "leap_ec/multiobjective/problems.py:ZDT5Problem", "leap_ec/multiobjective/problems.py:ZDT6Problem"]}
{"id": "C75", "title": "ea_solve stays inside hard bounds and returns the best point tried", "statement": "For proper arguments ea_solve(function, bounds, generations, pop_size, ...) does not raise even if the function does, and calls the function exactly pop_size * (generations + 1) times, always with one coordinate per pair of bounds, initially inside the bounds and with hard_bounds always inside them. It returns the best of all points it tried (a point where the function raised counts as NaN) and writes one row per generation with the best value so far.", "quantifier": "all functions, bounds, generations, population sizes, mutation widths and all random draws", "why_tests_cant": "all functions and all draws", "anchors": ["leap_ec/simple.py:ea_solve"]}
{"id": "C76", "title": "Distributed individuals: identifiers, failures on workers, and eval_pool", "statement": "Over any history of creating, cloning and evaluating distributed individuals in one process the k-th individual gets identifier k and all get the uuid drawn for them. A clone has its parent's genome, the parent as its only parent, no fitness, and otherwise the parent's state. Evaluating on a worker never raises because of the decoder or the problem: the individual comes back with its score, or with NaN, marked not viable, with the exception; with both times and the worker's host and pid; without the count of failures in the context a failure raises KeyError. eval_pool(client, size) takes exactly size individuals from upstream, in whatever order the workers finish hands back the same individuals in order, each evaluated, and leaves the rest upstream; with too few upstream it raises StopIteration before anything is evaluated.", "quantifier": "all histories, genomes, problems and decoders that may raise, and all orders in which workers finish", "why_tests_cant": "every history and every completion order", "anchors": ["leap_ec/distrib/individual.py:DistributedIndividual", "leap_ec/distrib/evaluate.py:evaluate", "leap_ec/distrib/synchronous.py:eval_population", "leap_ec/distrib/synchronous.py:eval_pool", "leap_ec/individual.py:RobustIndividual"]}
{"id": "C77", "title": "Distributed logs record exactly what they are shown", "statement": "After any calls the population log holds its header, if asked for, and then for each call whose number is a multiple of the update interval one row per individual, in order, with the number of the call; the worker log holds one row per individual that has the worker attributes, in order. Both return what they were given. An individual without the attributes makes the call raise AttributeError; an update interval of 0 raises ZeroDivisionError and writes nothing.", "quantifier": "all sequences of calls, populations and intervals", "why_tests_cant": "unbounded histories of calls", "anchors": ["leap_ec/distrib/probe.py:log_pop", "leap_ec/distrib/probe.py:log_worker_location"]}
{"id": "C78", "title": "Learning-curve analysis: area under the curve, maxima, averages", "statement": "auc is the area under the step curve of a run whatever the order of its rows; it lies between the smallest and largest value times the time span; max_value is the largest value. avg_curves has exactly one row per (experiment, time) in the data with mean and sample standard deviation over its rows; scalar_metrics_per_run one row per run with the measure of its curve; avg_scalar_metrics one row per experiment with mean and standard deviation over its runs. The analyzer is built for every data frame with consistent columns and refused otherwise; concatenated files hold all rows in order.", "quantifier": "all data frames, column names and measures", "why_tests_cant": "all data and row orders", "anchors": ["leap_ec/contrib/analysis.py:auc", "leap_ec/contrib/analysis.py:max_value", "leap_ec/contrib/analysis.py:CurveAnalyzer", "leap_ec/contrib/analysis.py:cat_csv_files"]}
{"id": "C79", "title": "CGP operators and initialisers keep genomes valid", "statement": "Every initialiser for a CGP decoder gives valid genomes. cgp_mutate of a valid genome gives a valid genome that differs only where a coin falls below the rate, in place on the individuals from upstream, with their fitness reset. The primitives NAND and NotX compute their truth tables and refuse too few arguments; a wrapped function declares the arity it was made with. The decoder with parameters accepts exactly the sizes the plain decoder accepts, and genomes made for it decode.", "quantifier": "all decoder sizes, genomes, rates and random draws", "why_tests_cant": "all sizes and draws", "anchors": ["leap_ec/executable_rep/cgp.py:NAND", "leap_ec/executable_rep/cgp.py:NotX", "leap_ec/executable_rep/cgp.py:FunctionPrimitive", "leap_ec/executable_rep/cgp.py:cgp_mutate", "leap_ec/executable_rep/cgp.py:cgp_genome_mutate", "leap_ec/executable_rep/cgp.py:create_cgp_vector", "leap_ec/executable_rep/cgp.py:CGPWithParametersDecoder"]}
{"id": "C80", "title": "Image problems measure agreement with the target image", "statement": "ImageProblem scores the number of pixels where the bit string agrees with the image, with the maximum exactly at the image. ImageXYProblem draws a function by evaluating it at every pixel and scores the Euclidean distance between drawing and target over all pixels and channels: never negative and 0 exactly when the function draws the target. Executables with the wrong number of outputs are refused.", "quantifier": "all images, sizes, bit strings and executables", "why_tests_cant": "all images and functions", "anchors": ["leap_ec/binary_rep/problems.py:ImageProblem", "leap_ec/executable_rep/problems.py:ImageXYProblem"]}
{"id": "C81", "title": "The benchmark problems as users get them: default arguments, direction and bounds agree with the known optimum", "statement": "For each real-valued and bit-string benchmark built with its default arguments and direction, over the problem's own bounds, the individual the library ranks best is the documented optimum and every other is worse: the origin for the sphere, Rastrigin, Griewank, Ackley, Weierstrass and the noisy quartic; the ones vector for Rosenbrock; the 2.5 vector for Lunacek; the points with all coordinates from 5 on for Step; the grid of the cosine family; a point in the foxhole around (-32, -32) for Shekel; a value of 0 up to 1e-6 per dimension for Schwefel; some best point for Langermann; all ones, the target, or both constant strings for the bit-string problems. The argument maximize turns every comparison around.", "quantifier": "all dimensions and all points of the box", "why_tests_cant": "a continuum of points in every dimension", "anchors": ["leap_ec/real_rep/problems.py:SpheroidProblem", "leap_ec/real_rep/problems.py:RastriginProblem", "leap_ec/real_rep/problems.py:RosenbrockProblem", "leap_ec/real_rep/problems.py:StepProblem", "leap_ec/real_rep/problems.py:ShekelProblem", "leap_ec/real_rep/problems.py:SchwefelProblem", "leap_ec/real_rep/problems.py:LangermannProblem", "leap_ec/binary_rep/problems.py:MaxOnes", "leap_ec/binary_rep/problems.py:DeceptiveTrap"]}
{"id": "C82", "title": "Logs of migrations and of cooperative trials record every event", "statement": "A migration log holds one row per immigrant processed, in order, over any history of calls: the notes, the generation of the call, the fitness of the immigrant and of the individual it met, and success exactly when the immigrant was not worse; without a stream nothing is written. Logging cooperative evaluation changes neither fitness, teams nor exceptions; the log grows, trial by trial, by one row per member of the team and one for the combined individual, whose genome is the concatenation in the order of the sub-populations, with its fitness.", "quantifier": "all histories of migrations, topologies, draws, teams and evaluation functions", "why_tests_cant": "unbounded histories and arbitrary draws", "anchors": ["leap_ec/ops.py:migration_metric", "leap_ec/ops.py:migrate", "leap_ec/ops.py:concat_combine", "leap_ec/problem.py:CooperativeProblem"]}
{"id": "C83", "title": "Plot probes draw exactly the history they observed", "statement": "Over any history of calls, the lines of a metrics plot probe hold, for every observed step, the step and the value of each metric on the population passed at that step, in order; each call returns the population itself; the axes contain every point shown. A scatter probe shows exactly the phenomes of the last population passed at an observed step. The contour table of a problem holds its fitness at every grid point. Ill-formed input is refused.", "quantifier": "all histories of populations and steps, all metrics, problems and grids", "why_tests_cant": "unbounded histories; arbitrary metrics and populations", "anchors": ["leap_ec/probe.py:PopulationMetricsPlotProbe", "leap_ec/probe.py:FitnessPlotProbe", "leap_ec/probe.py:CartesianPhenotypePlotProbe", "leap_ec/probe.py:HistPhenotypePlotProbe", "leap_ec/probe.py:SumPhenotypePlotProbe", "leap_ec/multiobjective/probe.py:ParetoPlotProbe2D"]}
{"id": "C84", "title": "Printing operators pass everything through and write exactly what they are told", "statement": "The printing operators hand on the population or stream of individuals they get, unchanged and in order, and write one text for each, also when upstream fails; a comment is written line by line with the comment character and can be read back; the header names the columns in the order of the rows; a probe with both a stream and a dataframe puts the same table in both, over any history of calls; printing arrays as lists is undone afterwards.", "quantifier": "all populations, streams, texts, probes and histories of calls", "why_tests_cant": "arbitrary texts and unbounded histories, also with failing calls", "anchors": ["leap_ec/probe.py:print_probe", "leap_ec/probe.py:print_individual", "leap_ec/probe.py:_maybe_list", "leap_ec/probe.py:FitnessStatsCSVProbe", "leap_ec/probe.py:AttributesCSVProbe", "leap_ec/util.py:print_list", "leap_ec/util.py:print_population"]}
{"id": "C85", "title": "Steady-state NSGA-II keeps the Pareto front of everything it evaluated", "statement": "A run of the asynchronous steady-state NSGA-II inserts, in order of completion, exactly the individuals whose evaluation completed; after the run the population is what the efficient non-domination level update makes of that history; as long as the non-dominated front always fits, every non-dominated point ever evaluated is still in the population; the population holds the smaller of its size and the number of completions; the births reach the budget and overshoot it by less than one batch of offspring.", "quantifier": "all schedules of completions, problems, initial populations, sizes and budgets", "why_tests_cant": "every completion order and every history of evaluations", "anchors": ["leap_ec/multiobjective/asynchronous.py:steady_state_nsga_2", "leap_ec/multiobjective/asynchronous.py:ENLUInserter", "leap_ec/distrib/asynchronous.py:steady_state"]}
{"id": "C86", "title": "Whole runs stay feasible, carry no stale fitness and keep the best", "statement": "When a generational run returns, with any selection, any chain of cloning, mutation, crossover and evaluation operators ending in an evaluation, any stop condition and any number of generations, the individuals returned are distinct, as many as asked for, each has a genome of the right length with every gene allowed at its position, and its fitness is the problem's score of exactly these genes. Nothing that existed before the run has changed, and with at least one elite nobody of the initial population is better than the best of the final one. The mutation and crossover operators of the library qualify.", "quantifier": "all selections, operator chains, stop conditions, random numbers, population sizes and numbers of generations", "why_tests_cant": "it is about the interaction of lazily interleaved operators over whole runs of any length", "anchors": ["leap_ec/algorithm.py:generational_ea", "leap_ec/ops.py:clone", "leap_ec/ops.py:evaluate", "leap_ec/ops.py:pool", "leap_ec/ops.py:UniformCrossover", "leap_ec/ops.py:NAryCrossover", "leap_ec/binary_rep/ops.py:mutate_bitflip", "leap_ec/int_rep/ops.py:mutate_randint", "leap_ec/int_rep/ops.py:mutate_binomial", "leap_ec/real_rep/ops.py:mutate_gaussian"]}
{"id": "C87", "title": "Runs return, and what they return decodes", "statement": "A generational run returns, for any random numbers and any number of generations, if its initialiser, operators and problem accept the genomes allowed and selection picks somebody from every non-empty population. Bit flipping, integer resampling and Gaussian mutation with usable parameters, uniform crossover, and tournament selection qualify. A genetic algorithm on binary-encoded real parameters therefore always returns, with every individual scored on a vector within the bounds of the parameters. Evolving Cartesian genetic programs within the decoder's bounds returns only genomes that respect its constraints and decode to feed-forward graphs.", "quantifier": "all random numbers, selections, operator chains, numbers of generations, parameters and bounds", "why_tests_cant": "it is about every reachable genome of runs of any length, and about the absence of exceptions", "anchors": ["leap_ec/algorithm.py:generational_ea", "leap_ec/ops.py:tournament_selection", "leap_ec/ops.py:UniformCrossover", "leap_ec/binary_rep/ops.py:mutate_bitflip", "leap_ec/binary_rep/decoders.py:BinaryToRealDecoder", "leap_ec/int_rep/ops.py:mutate_randint", "leap_ec/real_rep/ops.py:mutate_gaussian", "leap_ec/executable_rep/cgp.py:CGPDecoder"]}
{"id": "C88", "title": "Islands keep their members apart and in order", "statement": "Run several populations with a shared pipeline ending in a pool and a migration operator. Whenever the run returns, there are as many populations as asked for, each of the pool's size; every individual on an island or still travelling has acceptable genes and carries the problem's score of exactly these genes; no individual object is in two places; and individuals that existed before are unchanged. Immigration never loses the best of residents and arrivals. Exactly in generations divisible by the gap each island sends a copy of the chosen sponsor, with its genes and fitness, to one of its neighbours. The run goes on until the stop condition holds or the generations are used up, and it returns whenever the selections find somebody and every node has a neighbour.", "quantifier": "all topologies, gaps, selections, operator chains, numbers of islands and generations, and random numbers", "why_tests_cant": "aliasing between islands shows only in particular migration histories, and no finite set of runs covers all topologies and lengths", "anchors": ["leap_ec/algorithm.py:multi_population_ea", "leap_ec/ops.py:migrate", "leap_ec/ops.py:pool", "leap_ec/individual.py:Individual.clone"]}
{"id": "C89", "title": "Asynchronous runs are sound for every completion order", "statement": "Run the asynchronous steady-state algorithm with either inserter. Whatever the order in which workers finish, whether they get individuals or copies, and wherever scoring raises: everybody who came back has acceptable genes and carries the problem's score of exactly these genes, or is marked as not viable, carries NaN, and scoring their genes raises. Nobody comes back twice. The population holds as many of those who came back as there is room for, and nobody twice. Births are counted exactly and overrun the budget by less than one batch of offspring. If NaN beats no score, nobody who came back viable beats everybody viable in the population. Individuals that existed before are unchanged. The run returns and ends with the budget spent.", "quantifier": "all completion orders, copying decisions, failures, selections, operator chains, budgets, sizes and random numbers", "why_tests_cant": "completion orders and failure patterns are unbounded, and a test cluster shows a handful of them", "anchors": ["leap_ec/distrib/asynchronous.py:steady_state", "leap_ec/distrib/asynchronous.py:tournament_insert_into_pop", "leap_ec/distrib/asynchronous.py:greedy_insert_into_pop", "leap_ec/individual.py:RobustIndividual.evaluate", "leap_ec/distrib/evaluate.py:is_viable"]}
{"id": "C90", "title": "NSGA-II runs keep feasible, truly scored individuals and select exactly by rank and crowding", "statement": "Run the generational NSGA-II with a pipeline ending in an evaluation and a pool. Whenever it returns, the population consists of different individuals made by this run, never more than initially, each with acceptable genes and the problem's objective vector of exactly these genes, and individuals that existed before are unchanged. Every generation gave everybody their non-domination rank and crowding distance and kept, best first, the best of those whose rank has different vectors, as many as there were parents. The run returns unless some generation left nobody, which happens in the first generation if all objective vectors are the same.", "quantifier": "all selections, operator chains, sizes, numbers of objectives and generations, stop conditions and random numbers", "why_tests_cant": "the run depends on a history of ranks and crowding distances that no finite set of runs covers", "anchors": ["leap_ec/multiobjective/nsga2.py:generalized_nsga_2", "leap_ec/multiobjective/ops.py:rank_ordinal_sort", "leap_ec/multiobjective/ops.py:crowding_distance_calc", "leap_ec/ops.py:truncation_selection"]}
{"id": "C91", "title": "Wrapped problems compare and evaluate predictably, to any depth of wrapping", "statement": "Wrap a scalar problem any number of times with offset, averaging, alternating, cooperative or phenome-moving problems. In each generation the result compares fitnesses exactly as a plain scalar problem of one direction: the one given to the outermost wrapper that was told one, else that of the (active) problem inside. Its value is the mean of as many evaluations of the innermost problem as the product of all averaging numbers, at the moved phenome, plus the sum of all offsets; so around a deterministic problem wrapping never changes which of two phenomes is better. When an alternating problem passes to one of the opposite direction all comparisons of stored fitnesses turn round. Averaged fitnesses are equal only when identical, others within the tolerance. A wrapper around an averaged, alternating or cooperative problem must be told its direction. A cooperative problem can be evaluated only as the outermost one.", "quantifier": "all problem objects that can be built from the wrappers, of any depth, all generations, fitnesses and phenomes", "why_tests_cant": "the combinations of wrappers are unlimited", "anchors": ["leap_ec/problem.py:FitnessOffsetProblem", "leap_ec/problem.py:AverageFitnessProblem", "leap_ec/problem.py:AlternatingProblem", "leap_ec/problem.py:CooperativeProblem", "leap_ec/individual.py:WholeEvaluatedIndividual.evaluate_imp", "leap_ec/real_rep/problems.py:TranslatedProblem"]}
{"id": "C92", "title": "Plots of two-dimensional problems show the values of the problem on the whole grid", "statement": "A surface or contour plot of a problem shows, over the grid lines lo, lo + g, lo + 2g, ... below the upper limit in each direction, the value of the problem at each crossing, extended by the padding coordinates. The problem is called once at every grid point, row by row, after one extra call at the first. When the first value is an int the fractions of all others are cut off. Without limits the bounds of the problem are used, and without a granularity a fiftieth of their width, giving fifty lines. Limits that are not pairs, a padding that is not an array, no grid lines, an unknown kind or a problem without the bounds needed are refused without a call. Further keyword arguments can be given with surface plots only.", "quantifier": "all functions, limits, granularities, paddings and keyword arguments", "why_tests_cant": "the grids are unlimited and every point has to be right", "anchors": ["leap_ec/real_rep/problems.py:plot_2d_problem", "leap_ec/real_rep/problems.py:plot_2d_function", "leap_ec/real_rep/problems.py:plot_2d_contour"]}
{"id": "C93", "title": "Logging on distributed workers", "statement": "After any history of plugin setups, teardowns and log calls in a process, a worker that had no logger has the shared one exactly when a plugin was set up on it, and one that had a logger keeps it. The level of all workers in the process is that of the plugin set up last on a worker then without logger; plugins set up again only warn. A message is written exactly when its level reaches this level, in order, with the host and process number of the process that imported the module; on a worker without logger logging and tearing down are errors. A forked process reports its parent's number.", "quantifier": "all histories of setups, teardowns and messages on any number of workers", "why_tests_cant": "histories are unlimited and workers interleave freely", "anchors": ["leap_ec/distrib/logger.py:WorkerLoggerPlugin", "leap_ec/distrib/logger.py:EvaluatorLogFilter"]}
{"id": "C94", "title": "A saved repertoire is read back", "statement": "Exporting a repertoire of numeric genomes and creating a new repertoire from the file gives the same genomes in the same order, gene by gene, with integers turned into floats; reading and exporting again changes nothing more. Empty repertoires and genomes are included. A repertoire with a genome of booleans, as binary initialisation makes them, can be exported but not read.", "quantifier": "all repertoires, genomes and gene values", "why_tests_cant": "the repertoires are unlimited", "anchors": ["leap_ec/contrib/transfer/sequential.py:PopulationSeedingRepertoire.export", "leap_ec/contrib/transfer/sequential.py:PopulationSeedingRepertoire.__init__"]}
{"id": "C95", "title": "Random operators have the rates they are given", "statement": "With random numbers that are equally likely fractions and independent: bit flip changes each gene independently with the chance asked for (any given outcome has the product of the chances), so on average the expected number of genes; integer mutation gives a drawn gene each value of its range equally often; Gaussian mutation changes the expected number of genes; a uniform crossover swaps each gene independently with the given chance; one-point crossover cuts each point equally often; random bit strings are uniform. A binomially mutated gene moves on average by the fractional part of n times the coin's chance, so up, although documented as centred on the old value.", "quantifier": "all genomes, rates, positions and outcomes, any resolution of the random numbers", "why_tests_cant": "a chance is a statement about all outcomes; samples only estimate it", "anchors": ["leap_ec/binary_rep/ops.py:mutate_bitflip", "leap_ec/int_rep/ops.py:mutate_randint", "leap_ec/int_rep/ops.py:mutate_binomial", "leap_ec/real_rep/ops.py:mutate_gaussian", "leap_ec/ops.py:UniformCrossover", "leap_ec/ops.py:NAryCrossover", "leap_ec/binary_rep/initializers.py:create_binary_sequence"]}
{"id": "C96", "title": "Chances of being selected", "statement": "In a tournament of size k among n individuals the winner is no better than an individual i with chance (c/n)^k, c being the number of individuals no better than i, and worse than i with chance (b/n)^k, b being the number worse; equally good individuals have the same chance wherever they stand; the same reversed when selecting the worst. Fitness-proportional selection takes each individual with its share of the total, up to the resolution of random numbers. In every pass of N selections of stochastic universal sampling an individual gets N times its share of copies on average, up to that resolution.", "quantifier": "all populations, comparisons that are strict weak orders, tournament sizes, fitness values, passes", "why_tests_cant": "a chance is a statement about all outcomes; samples only estimate it", "anchors": ["leap_ec/ops.py:tournament_selection", "leap_ec/ops.py:proportional_selection", "leap_ec/ops.py:sus_selection"]}
{"id": "C97", "title": "Decoding to reals in floating point", "statement": "With IEEE double arithmetic (each operation rounded to the nearest double, ties to even) a binary segment of 1 to 53 bits decodes to its lower bound when all bits are zero, to values that never decrease as the integer coded grows, none below the lower bound, and each within 2^-50 times the larger bound of the exact value. It can lie above the upper bound by such an amount: four ones in [-500, 500] decode to 500 + 2^-43.", "quantifier": "all genomes, segment lists, bounds that are doubles at least 2^-900 apart, decoding histories", "why_tests_cant": "tests compare with a tolerance on a few segments; rounding depends on every bit of the bounds and of the genome", "anchors": ["leap_ec/binary_rep/decoders.py:BinaryToRealDecoderCommon", "leap_ec/binary_rep/decoders.py:BinaryToRealDecoder"]}
{"id": "C98", "title": "Rates and initial vectors in floating point", "statement": "With IEEE double arithmetic the per-gene chance computed from an expected number of mutations not above the genome length is between 0 and 1 and within 2^-51 of the exact quotient; it can be just below 1 when every gene should change (49 of 49). Every gene of a random real vector lies between its bounds, both included, for all double bounds, however close or tiny; the upper bound itself can occur.", "quantifier": "all genome lengths up to 2^53, expected numbers, bounds, random numbers", "why_tests_cant": "rounding errors appear at particular values only", "anchors": ["leap_ec/ops.py:compute_expected_probability", "leap_ec/real_rep/initializers.py:create_real_vector"]}
{"id": "C99", "title": "Fitness-proportional selections in floating point", "statement": "With IEEE double arithmetic proportional selection never fails on non-negative values that are not all negligible, never takes an individual of value zero, and takes one whose exact slice of the wheel, stretched by (2n+5) 2^-53 at both ends, contains the random number, whatever the total was rounded to. Stochastic universal sampling takes the individual on whose slice each point falls, slices and points as rounded, and raises IndexError exactly when a point lies beyond the rounded sum of the values: this happens for 15 individuals with fitnesses 1, 1, 1 and twelve zeros. It cannot happen when fitnesses are whole numbers and the number of points is a power of two with sum times points at most 2^53.", "quantifier": "all lists of values, totals, random numbers, numbers of points and passes", "why_tests_cant": "the failure needs one random number in 2^53 and a particular fitness sum", "anchors": ["leap_ec/ops.py:proportional_selection", "leap_ec/ops.py:sus_selection"]}
{"id": "C100", "title": "Whole runs of cooperative coevolution", "statement": "When a cooperative coevolution run over any number of sub-populations returns, nobody who existed before is changed, and the result has one population for each sub-population whose members are new, all different and have acceptable genes for their sub-population. If no generation ran everybody has the constant initial fitness. Otherwise everybody's fitness is the mean of num_trials scores, each the score of a team made of the individual itself and one member of each other sub-population, genomes joined in the order of the sub-populations: members of the last generation for sub-populations that come earlier, and of the generation before for those that come later. Partner selectors carry on from one trial to the next, so a rotating selector gives the t-th partner in the t-th trial. With no trials a ValueError is raised.", "quantifier": "all numbers of sub-populations, initialisers, operators, parent and collaborator selectors, stop conditions, trials, generations", "why_tests_cant": "partners depend on the order in which sub-populations are replaced and on the random numbers; tests check one evaluation", "anchors": ["leap_ec/algorithm.py:multi_population_ea", "leap_ec/ops.py:CooperativeEvaluate", "leap_ec/ops.py:concat_combine", "leap_ec/ops.py:const_evaluate"]}
{"id": "C101", "title": "An elitist run finds any genome its mutation can make", "statement": "Take a generational run that keeps at least one elite and whose last operators are a mutation and an evaluation. If, whatever the genome, the mutation makes the target genome out of it with chance at least q, then after G generations of size births the population holds somebody at least as good as the target with chance at least 1 - (1 - q)^(G size), whatever the problem, the first population, the selection and the other operators. Bit-flip mutation with chance b of flipping a bit has q = min(b, 1-b)^n, and redrawing integers within their bounds with chance b has the product of b/width, so with a rate strictly between 0 and 1 the chance comes as near to 1 as asked for. A run without mutation, on the other hand, never makes a gene that nobody in the first population had in the same position.", "quantifier": "all problems, first populations, selections, pipelines before the mutation, rates strictly between 0 and 1, targets, numbers of generations", "why_tests_cant": "a limit over unboundedly many generations and a chance over all random draws; a test sees one run of one seed", "anchors": ["leap_ec/algorithm.py:generational_ea", "leap_ec/ops.py:elitist_survival", "leap_ec/binary_rep/ops.py:mutate_bitflip", "leap_ec/int_rep/ops.py:mutate_randint"]}
{"id": "C102", "title": "Whole runs of coevolution with a CooperativeProblem", "statement": "Take a run of coevolution whose individuals have a CooperativeProblem and are evaluated in groups. If it returns, its members are new, all different and have acceptable genes for their sub-population, and nobody who existed before is changed. Whatever the size of the groups and whatever phenomes are cached, the fitness of everybody is the mean score of num_trials teams, each made of the individual itself and one member of every other sub-population: of this generation where the sub-population comes earlier, of the generation before where it comes later. Every trial begins the selection of collaborators anew, so with a selector that takes members in a fixed order all trials of an individual are played with the same team. The initial population must not be evaluated by the problem itself: in a clean context that raises KeyError, and after an earlier run in the same process it silently scores the new individuals in teams with the old run's members.", "quantifier": "all numbers of sub-populations, initialisers, operators, selections, stop conditions, chunk sizes, numbers of trials and generations", "why_tests_cant": "it relates every fitness in a run of any length to the populations at the time of its evaluation; a test looks at a few runs", "anchors": ["leap_ec/problem.py:CooperativeProblem", "leap_ec/ops.py:grouped_evaluate", "leap_ec/algorithm.py:multi_population_ea", "leap_ec/individual.py:WholeEvaluatedIndividual"]}
{"id": "C103", "title": "Plots of the best rules and of the best network", "statement": "The rule plot draws, for a best individual of the population, exactly one rectangle per rule, in the order of the rules: the rectangle covers exactly the points of the visible area that the rule's conditions on the first two inputs accept, wildcards included, and it is blue exactly when the rule's first action rounds to 0. It hands the population on and leaves no rectangle of an earlier call. With a modulo above one it raises NameError, it ignores the dimensions it was asked to plot, and rules with one input raise ValueError. The graph plot shows after any history of calls the network of a best individual of the last population whose generation was a multiple of the modulo.", "quantifier": "all populations, genomes, fitness orders, visible areas and histories of calls", "why_tests_cant": "it relates every rectangle to every point of the plane for all rule sets; a test draws one picture", "anchors": ["leap_ec/executable_rep/rules.py:PlotPittRuleProbe", "leap_ec/executable_rep/neural_network.py:GraphPhenotypeProbe"]}
{"id": "C104", "title": "Plots and reports of performance curves", "statement": "plot_curves draws exactly one line for each run of each experiment in the data, in the colour the legend gives the experiment, through the rows of that run in their order, and together the lines show every row once. plot_avg_curves draws one line per experiment, at each time the mean over all its rows at that time, in increasing time, with the sample standard deviation as error bar if asked. plot_scalars_bar gives each experiment the scores of its runs, each run once. plot all does the same for the times that are multiples of the modulo. Up to ten experiments have different colours; beyond that the colours repeat. analyze reports on the rows of all files together and tells runs apart by job and experiment only, so runs with the same job in different files are merged into one. The file of averages it writes is refused by plot avg-curves. plot_avg_scalars always fails.", "quantifier": "all data frames, column names, metrics, numbers of experiments, runs and files", "why_tests_cant": "it says that no row is lost, doubled or drawn in a wrong line for all data sets; a test draws one", "anchors": ["leap_ec/contrib/analysis.py:CurvePlotter", "leap_ec/contrib/analysis.py:analyze", "leap_ec/contrib/analysis.py:all", "leap_ec/contrib/analysis.py:avg_curves", "leap_ec/contrib/analysis.py:cat_csv_files"]}
{"id": "C105", "title": "The t-test helper for Gaussian samples", "statement": "If the samples differ, or there are two or more reference observations with a standard deviation above zero, equals_gaussian is true exactly when the two-sided p-value of Student's t for equal variances exceeds the threshold, with the samples' variance estimated by dividing by their number. The order of the samples, the unit and the origin do not matter; equal means are accepted at every threshold below 1; a larger difference of the means or a higher threshold never turns a rejection into an acceptance. Because of the divisor it is stricter than the textbook test: there is always a threshold at which the textbook test accepts and the helper rejects. If nothing varies it answers False, even when the samples equal the reference.", "quantifier": "all samples, reference means and deviations, numbers of observations and thresholds, and every p-value function that is 1 at 0 and decreasing", "why_tests_cant": "it compares the answer with a test statistic for all samples; a test tries a few random samples", "anchors": ["leap_ec/statistical_helpers.py:equals_gaussian"]}
{"id": "C106", "title": "Colours made by the image primitives", "statement": "Of the fifteen primitives of cgp_art_primitives eleven make numbers from 0 to 255 of numbers from 0 to 255; each of the other four makes a number above 255 of some. A circuit whose primitives are among the eleven, whose parameters are from 0 to 255 and whose nodes have two inputs answers every call on such numbers, and with such numbers, whatever its genome. With the whole set an image can have pixel values out of range. Eight primitives do not care which of their two pixels comes first, six look at one pixel only, and the third tells the two apart. On intensities from 0 to 1 the product of two pixels is a colour and their sum reaches 510.", "quantifier": "all arguments, parameters, genomes, circuit sizes and inputs", "why_tests_cant": "it bounds real-valued functions on a continuum and circuits of any size; a test evaluates a few points", "anchors": ["leap_ec/executable_rep/cgp.py:cgp_art_primitives", "leap_ec/executable_rep/cgp.py:CGPWithParametersDecoder"]}
{"id": "C107", "title": "Selection favours the better", "statement": "When the best wins, the mean score of a tournament's winner, over all draws, is at least the mean score of the population, never falls when tournaments get bigger, and is strictly above the mean as soon as two scores differ and two or more compete; with select_worst it is at most the mean; a tournament of one is a fair pick. The mean score of what truncation selection keeps is at least the mean of everybody who took part. With fitness-proportional selection, and in every pass of stochastic universal sampling, the mean key selected is at least the mean of the population up to the resolution of the random numbers, for every natural exponent, provided that adding the offset leaves no negative number and not only zeros. With an odd exponent a negative number is refused, as documented; with an even one it is not, and the worse of two individuals can be selected more often.", "quantifier": "all populations, keys, tournament sizes, offsets, exponents and random draws", "why_tests_cant": "it compares an expectation over all random draws with a mean over every population; a test samples a few", "anchors": ["leap_ec/ops.py:tournament_selection", "leap_ec/ops.py:truncation_selection", "leap_ec/ops.py:proportional_selection", "leap_ec/ops.py:sus_selection"]}
{"id": "C108", "title": "Random search as a walk", "statement": "A random_search run that returns holds 1 + (evaluations - 1) * pool size individuals, all different objects created in the run, each with the fitness of its own genome, and nobody older is modified. With a mutation and an evaluation as operators, everybody but the first has the genes the mutation made of the one just before. If every step can make a target genome with chance at least q whatever it starts from, then the chance of the trajectory holding the target after K steps is at least 1 - (1 - q)^(K * size), so with bit flips at a rate strictly between 0 and 1 it comes as close to 1 as asked for. The pipeline in the documentation flips every bit at every step: its trajectory only goes to and fro between the first genome and its complement, however long it is.", "quantifier": "all representations, problems, pipelines, numbers of evaluations, random draws and starting memories", "why_tests_cant": "it ranges over every history of the walk and over the number of steps; a test looks at a few seeds", "anchors": ["leap_ec/algorithm.py:random_search"]}
{"id": "C109", "title": "Runs do not depend on the history of the process", "statement": "A run of generational_ea, random_search, multi_population_ea, the asynchronous steady_state, a synchronous distributed run or a hand-written loop that ends in truncation_selection or insertion_selection, started from the same random state with the same settings, returns populations that look the same (genes, fitness, viability, in the same order) or raises the same exception, whatever individuals exist already from earlier runs, and leaves the random state the same. It changes none of the older individuals, genomes or parent sets, even if it raises. This needs operators that judge individuals by their appearance, as tournament selection and both inserters do. One operator keeps something between runs: a migrate operator used again still holds the travellers of the earlier run, who then appear on the islands of the next.", "quantifier": "all settings, pipelines, representations, problems, random states, memories left by earlier runs, and decisions of the workers", "why_tests_cant": "it compares runs after every possible history of the process; a test makes a few runs in a fresh one", "anchors": ["leap_ec/algorithm.py:generational_ea", "leap_ec/algorithm.py:random_search", "leap_ec/algorithm.py:multi_population_ea", "leap_ec/distrib/asynchronous.py:steady_state", "leap_ec/ops.py:migrate", "examples/simple/simple_ep.py", "examples/simple/simple_ev.py", "leap_ec/distrib/synchronous.py:eval_pool"]}
{"id": "C110", "title": "Crossover operators that keep children", "statement": "In a run of generational_ea whose crossover operators were made with persist_children=True and are new at the start, everything holds that holds without them: the individuals returned are different individuals made in the run, acceptable, with the score of their own genome, nothing older has changed, and with elites the best is not lost. A kept child is handed out once, and no child is lost: after G generations of a pool of size k exactly G*k children were made, plus one that waits in the last crossover operator if G*k is odd. With persist_children=False, the default, what an operator still holds is ignored, and a pool of odd size makes one child too many in every generation. The islands of multi_population_ea share the operators, and so do runs given the same operator objects: a kept child of one island or run then appears in the next.", "quantifier": "all settings, pipelines with any number of crossover operators, representations, problems, random states, pool sizes and numbers of generations", "why_tests_cant": "the child waiting in an operator depends on every earlier use; a test makes a few calls of one operator", "anchors": ["leap_ec/ops.py:Crossover", "leap_ec/ops.py:UniformCrossover", "leap_ec/ops.py:NAryCrossover", "leap_ec/algorithm.py:generational_ea", "leap_ec/algorithm.py:multi_population_ea"]}
{"id": "C111", "title": "Records of parents form a family tree", "statement": "Every individual carries an identity and the identities of its parents. In a run of generational_ea, multi_population_ea, random_search, generalized_nsga_2 or a hand-written loop that ends in truncation_selection or insertion_selection, with pipelines that clone once, after any number of generations: no identity is given out twice; the individuals of the initial populations have no parents; everybody else made in the run, survivor or not, has at least one recorded parent, and all recorded parents were made earlier in the same run, so that following the records back from anybody ends in the initial populations and never in a circle. The parents of an offspring are members of the population it was selected from: exactly one without crossover, at most two with one crossover operator, at most 2^k with k. An emigrant is recorded as the child of the individual it was copied from. Making offspring never changes the record of anybody who existed before. A pipeline that clones twice records the intermediate clone, which was never a member of a population.", "quantifier": "all selections, pipelines with any number of operators, topologies, migration settings, random states, population sizes and numbers of generations", "why_tests_cant": "the records of an individual are changed in place by later crossovers and copied by clones; a test looks at one clone or one crossover", "anchors": ["leap_ec/individual.py:Individual.clone", "leap_ec/ops.py:clone", "leap_ec/ops.py:Crossover", "leap_ec/ops.py:migrate", "leap_ec/algorithm.py:generational_ea", "leap_ec/algorithm.py:multi_population_ea", "leap_ec/algorithm.py:random_search", "leap_ec/multiobjective/nsga2.py:generalized_nsga_2", "examples/simple/simple_ep.py"]}
{"id": "C112", "title": "Logs of a run are complete up to the moment of a crash", "statement": "Put a probe at the end of the pipeline of generational_ea. A probe that does not raise changes nothing about the run. However the run ends, by returning or by an exception from the initialiser, an operator, an evaluation or the probe: the probe has been called exactly on the offspring of the generations that completed, in order, with consecutive generation numbers beginning with the start generation; everything that existed before the run is unchanged; all individuals that were logged, and the population from which the interrupted generation was bred, still have the attributes, genes and parents they had. The rows of a FitnessStatsCSVProbe are those that the logged individuals give after the run, and the best so far in a row is the best offspring of all generations until then. Without elites the returned population is the last one logged; with elites the best returned individual is at least as good as everything logged, but it may be missing from the log, because the initial population and survivors do not pass the probe.", "quantifier": "all selections, pipelines, probes, problems that may raise at any call, random states, population sizes, numbers of generations and outcomes", "why_tests_cant": "a crash can come at every call of every operator in every generation, and a row names individuals that later generations could have changed", "anchors": ["leap_ec/algorithm.py:generational_ea", "leap_ec/probe.py:FitnessStatsCSVProbe", "leap_ec/ops.py:elitist_survival", "leap_ec/util.py:inc_generation"]}
{"id": "C113", "title": "Every run spends exactly its budget of evaluations", "statement": "A run whose pipeline ends in evaluate calls the problem exactly once for each member of the initial population and once for each member of each pool: pop_size + n * size calls after n generations of generational_ea or generalized_nsga_2, num_populations times as many for multi_population_ea with migration, max(1, evaluations) for random_search, pop_size * (1 + n * brood) for a hand-written loop with brood offspring per parent that ends in truncation_selection or insertion_selection; with cooperative coevolution, by CooperativeEvaluate or by a CooperativeProblem in chunks of any size, num_trials calls for each offspring and none for the initial sub-populations. Keeping children in crossover operators changes nothing. An AverageFitnessProblem multiplies everything by its number of samples. The run goes through all generations unless the stop condition holds of what it returns. A run that raises has called the problem no more often than a complete run would have; a pipeline of robust individuals calls it at most once per member of the pool, whatever raises. The asynchronous steady_state calls it at most once for each individual that came back, and with count_nonviable at most init_pop_size + max_births + size - 1 times, where size offspring are made at a time, whatever order the workers finish in; a synchronous distributed run at most pop_size + n * size times. Nobody who survives, is an elite or migrates is scored again. (If evaluate stands before a crossover operator, a pool of odd size costs one call more than it has members.)", "quantifier": "all problems, which may raise at any call, selections, mutation and crossover operators, stop conditions, random states, population sizes, numbers of generations, islands, trials and samples", "why_tests_cant": "the number of calls depends on which iterators pull how often, for every pipeline and for every call that may raise", "anchors": ["leap_ec/algorithm.py:generational_ea", "leap_ec/algorithm.py:multi_population_ea", "leap_ec/algorithm.py:random_search", "leap_ec/multiobjective/nsga2.py:generalized_nsga_2", "leap_ec/ops.py:pool", "leap_ec/ops.py:evaluate", "leap_ec/ops.py:CooperativeEvaluate", "leap_ec/problem.py:CooperativeProblem", "leap_ec/problem.py:AverageFitnessProblem", "leap_ec/distrib/asynchronous.py:steady_state", "leap_ec/distrib/synchronous.py:eval_pool", "examples/simple/simple_es.py"]}
{"id": "C114", "title": "Runs over segmented genomes", "statement": "With individuals whose genomes are lists of segments, a pipeline select, clone, any of apply_mutation, segmented_mutate, add_segment, remove_segment and copy_segment, evaluate, pool changes no individual, genome list or segment that existed before, also when it raises or when the mutation functions work in place. The offspring are new individuals and no two of them share a genome list or a segment. If initializers and mutation functions keep segments well formed, every offspring has at least one segment, well formed segments only, and the fitness of its own segments; so has everybody that a run of generational_ea returns. Without copy_segment, offspring are exactly those obtained by computing with genomes as values. With elitism and a comparison that is a strict weak order, the best of each run is never worse than the best of its initial population. clone keeps the sharing of copied segments: with copy_segment a genome with two copies of a segment is not mutated like one with two equal segments, in the child, nor in any of its descendants.", "quantifier": "all populations, segment counts and contents, mutation functions in place or not, draws, problems, stop conditions, sizes and numbers of generations", "why_tests_cant": "aliasing between segments depends on the whole history of copies and clones, and every operator can raise at any point", "anchors": ["leap_ec/segmented_rep/ops.py:apply_mutation", "leap_ec/segmented_rep/ops.py:segmented_mutate", "leap_ec/segmented_rep/ops.py:add_segment", "leap_ec/segmented_rep/ops.py:remove_segment", "leap_ec/segmented_rep/ops.py:copy_segment", "leap_ec/segmented_rep/initializers.py:create_segmented_sequence", "leap_ec/individual.py:Individual.clone", "leap_ec/algorithm.py:generational_ea"]}
{"id": "C115", "title": "Islands with problems of their own", "statement": "multi_population_ea can be given a list of problems, one for each island. While all individuals of an island hold the island's problem, a pipeline select, clone, ..., evaluate, pool makes exactly the offspring it would make in a single-problem run with that problem, and they hold that problem too. With a customs stamp that gives immigrants the island's problem and evaluates them again, as in the multitask example, every run with any selections, topology, migration gap, stop condition and random numbers ends with everybody on island i holding the i-th problem and carrying that problem's score of exactly their genes; travellers carry the score of the problem they hold; nobody is in two places; nothing that existed before has changed; and by the island's problem the best of offspring and immigrants always stays. Such runs do return when creation, operators, selections and problems do not raise. A number of problems other than the number of islands is refused before anything happens. Without the stamp, which is the default, immigrants keep their old problem and score, are compared on the wrong scale and pass their problem on, so that an island can end up with nobody who works on its problem.", "quantifier": "all problems, numbers and sizes of islands, operators, selections, topologies, gaps, stop conditions, random draws and numbers of generations", "why_tests_cant": "which problem an individual holds depends on the whole history of its ancestors and migrations", "anchors": ["leap_ec/algorithm.py:multi_population_ea", "leap_ec/ops.py:migrate", "leap_ec/individual.py:Individual.clone", "leap_ec/individual.py:Individual.evaluate", "examples/advanced/multitask_island_model.py:problem_stamp"]}
{"id": "C116", "title": "Hand-written evolution loops", "statement": "A script that creates and evaluates a population and then repeats pipe(parents, select, clone, ..., evaluate, pool(len(parents) * brood), truncation_selection(len(parents), parents=parents)) ends, for every selection, operators (which may change with the generation), brood size, number of generations and random numbers, with as many individuals as it started with, and these are the best of everything it ever evaluated: nobody who was evaluated and is not in the final population is better than anybody in it, and no choice of evaluated individuals is better in any place, both in order; so the i-th best never gets worse. It evaluates exactly popSize + generations * popSize * brood individuals, none of them twice; each still carries the score of exactly its genes at the end, and nothing that existed before has changed. With insertion_selection instead, the population keeps its size and no place ever gets worse, but only the first of each brood can survive, so at most one newcomer per generation is kept and the best individual ever evaluated can be lost. Such scripts do run to their end when their parts do not raise.", "quantifier": "all problems, operators, selections, brood sizes, population sizes, numbers of generations and random draws", "why_tests_cant": "what is kept depends on everything that was evaluated in all generations", "anchors": ["examples/simple/simple_ep.py", "examples/simple/simple_es.py", "examples/simple/simple_ev.py", "leap_ec/ops.py:truncation_selection", "leap_ec/ops.py:insertion_selection", "leap_ec/ops.py:pool"]}
{"id": "C117", "title": "Evolution strategies find what they can mutate to", "statement": "Take a script that repeats select, clone, any operators, mutate, evaluate, pool and truncation_selection with parents, where the mutation may change from generation to generation (as with an annealed step size) and takes independent, equally likely random numbers for each birth. If in generation g the mutation makes a given target genome out of any allowed genome with chance at least q(g), then the final population holds somebody at least as good as the target with chance at least 1 minus the product over all generations of (1 - q(g)) ^ (popSize * brood), whatever the problem, the start, the selection and the other operators are. With bit flips whose rates stay away from 0 and 1 this comes as close to 1 as asked for.", "quantifier": "all problems, targets, starts, selections, operators, annealing schedules, sizes and numbers of generations", "why_tests_cant": "a statement about the chance of an event over all sequences of random numbers, for runs of every length", "anchors": ["examples/simple/simple_es.py", "examples/simple/simple_ep.py", "leap_ec/ops.py:truncation_selection", "leap_ec/binary_rep/ops.py:mutate_bitflip"]}
{"id": "C118", "title": "Runs on alternating problems", "statement": "When generational_ea runs on AlternatingProblem(problems, modulo), each of the problems in turn answers for modulo generations. For every pipeline, selection, stop condition, number of elites, first and last generation and random numbers: the initial population carries to the end of the run the score of the problem whose turn it was in the first generation, and everybody born later the score of the problem whose turn it was when they were born; nobody is evaluated again when the problem changes. Without elites everybody returned was scored by the problem whose turn it was in the last generation that ran. While it is one problem's turn, the run is exactly a run on that problem, and the turns follow one another; with an elite nobody is lost in a turn who is better, as that problem compares the scores, than everybody kept. The run returns when its parts do. Consequences: with elites an individual scored by another problem can stay ahead of individuals the present problem scores better, and after a run that ends with a turn, max(final_pop) compares by the next problem.", "quantifier": "all lists of problems, moduli, operators, selections, stop conditions, elites, generations and random draws", "why_tests_cant": "which problem scored an individual depends on the whole history of the run", "anchors": ["leap_ec/problem.py:AlternatingProblem", "leap_ec/algorithm.py:generational_ea", "leap_ec/ops.py:elitist_survival", "leap_ec/util.py:inc_generation"]}
{"id": "C119", "title": "Runs that learn rule systems only ever play legal actions", "statement": "Take generational_ea over Pitt rule systems as in the cart-pole example: the initializer, mutator and decoder of a PittRulesDecoder (no memory registers, Discrete(n) outputs, metric none or rule order), an EnvironmentProblem, any selection, elitism and stopping rule, and mutation functions that keep condition genes in the input box and action genes in 0..n-1, such as genome_mutate_gaussian and individual_mutate_randint with the bounds the decoder gives. Everybody the run returns has exactly num_rules rules, each with conditions in the box and an action in 0..n-1, in arrays of its own; it decodes; its executable answers every observation of the size of the input space with one action in 0..n-1; and its fitness is what running that rule system in the environment gave. The run also completes, if the environment does not raise on legal actions: it never sees another one. Nothing that was in memory before the run changes.", "quantifier": "all input boxes, numbers of rules, actions, environments, selections, mutation functions with the property, random choices, population sizes and numbers of generations", "why_tests_cant": "an invariant of every generation of every run, in every environment, over all random choices", "anchors": ["leap_ec/executable_rep/rules.py:PittRulesDecoder", "leap_ec/executable_rep/rules.py:PittRulesExecutable", "leap_ec/executable_rep/problems.py:EnvironmentProblem", "examples/advanced/pitt_rules_cartpole.py"]}
{"id": "C120", "title": "Runs that evolve network controllers complete and play legal actions", "statement": "Take generational_ea over real vectors decoded by SimpleNeuralNetworkDecoder(shape) with ArgmaxExecutable around the network, on an EnvironmentProblem, as in the cart-pole example: create_real_vector and mutate_gaussian with the same gene bounds, any selection, elitism and stopping rule. Everybody the run returns has decoder.length genes within the bounds, decodes to a network whose weights are exactly its genes, answers each observation of the input size with the number of the first greatest output, which is below the number of outputs, and has as fitness what that network got in the environment. The run completes if the environment gives observations of the input size and does not raise on the actions 0..n-1: it never sees another one. Nothing that was in memory before the run changes.", "quantifier": "all shapes, activation functions that keep the length, gene bounds, standard deviations, rates, environments, selections, random numbers, population sizes and numbers of generations", "why_tests_cant": "an invariant of every generation of every run, in every environment, over all random numbers", "anchors": ["leap_ec/executable_rep/neural_network.py:SimpleNeuralNetworkDecoder", "leap_ec/executable_rep/executable.py:ArgmaxExecutable", "leap_ec/executable_rep/executable.py:WrapperDecoder", "leap_ec/executable_rep/problems.py:EnvironmentProblem", "examples/advanced/neural_network_cartpole.py"]}
{"id": "C121", "title": "Runs that evolve circuits complete, and a perfect score means a correct circuit", "statement": "Take generational_ea over CGP genomes on a TruthTableProblem, as in the CGP example: the decoder's initializer, cgp_mutate, check_constraints, evaluate, with any selection, rate, elitism and stopping rule. Everybody the run returns respects the constraints of the decoder, and its fitness is exactly the fraction of the rows of the truth table on which the circuit described by the genome (read gate by gate, with or without pruning) gives the outputs asked for. So fitness lies between 0 and 1, and is 1 just when the circuit computes the function on all inputs. With an elite the run returns for every circuit of the first population one at least as good. The run completes, check_constraints never objecting, if the primitives accept truth values in the number of their arity, and the table has as many inputs as the circuits, or fewer with padding. A circuit over primitives that keep within some set of values never fails on inputs of that set and answers within it.", "quantifier": "all decoders, primitives, truth tables, rates, selections, random numbers, population sizes and numbers of generations", "why_tests_cant": "an invariant of every generation of every run, over all genomes and random numbers", "anchors": ["leap_ec/executable_rep/cgp.py:CGPDecoder", "leap_ec/executable_rep/cgp.py:CGPExecutable", "leap_ec/executable_rep/cgp.py:cgp_mutate", "leap_ec/executable_rep/problems.py:TruthTableProblem", "examples/advanced/cgp.py"]}
{"id": "C122", "title": "Runs that evaluate in groups", "statement": "When generational_ea runs with grouped_evaluate for the initial population and at the end of the pipeline (select, clone, mutation and crossover operators, pool, grouped_evaluate), as in examples/advanced/external_simulation.py, then, for every selection, every such operators, chunk size, number of generations and random numbers, the run completes when its parts do, returns different individuals, as many as the pool makes, with acceptable genes, changes nothing that existed before, and every individual it returns has as its fitness the problem's score of the genes it has.", "quantifier": "all operators, selections, chunk sizes, stop conditions, elites, generations and random draws", "why_tests_cant": "whether a score belongs to the present genes depends on the whole line of descent", "anchors": ["leap_ec/ops.py:grouped_evaluate", "leap_ec/individual.py:Individual.phenome", "leap_ec/individual.py:Individual.clone", "leap_ec/algorithm.py:generational_ea", "examples/advanced/external_simulation.py"]}
{"id": "C123", "title": "Runs that evolve images", "statement": "The run of examples/advanced/cgp_images.py (generational_ea on genomes with a CGP circuit and constants for its nodes, segmented_mutate with an integer mutation for the circuit and a bounded Gaussian mutation for the constants, ImageXYProblem) completes for every target image, set of pixelwise primitives that take the inputs and constants of a node, size of the circuit, selection, mutation rates, number of generations and random numbers. Everybody it returns has a genome of two segments, a circuit that respects the constraints and the right number of constants, all within their bounds, and has as fitness exactly the Euclidean distance between the target and the image painted by this genome, where the colour of a pixel is what the circuit computes from the coordinates of that pixel alone, with fractions dropped. So no fitness is negative, and it is 0 just when the image painted is the target. With an elite, for every image of the first population one at least as near to the target is returned.", "quantifier": "all images, primitives, circuit sizes, selections, rates, generations and random draws", "why_tests_cant": "the circuits that can arise in a run are not bounded, and the whole image is computed with arrays at once", "anchors": ["examples/advanced/cgp_images.py", "leap_ec/executable_rep/cgp.py:CGPWithParametersDecoder", "leap_ec/executable_rep/problems.py:ImageXYProblem", "leap_ec/segmented_rep/ops.py:segmented_mutate", "leap_ec/algorithm.py:generational_ea"]}
{"id": "C124", "title": "Synchronous distributed runs", "statement": "A run that evaluates with `synchronous.eval_population` and `synchronous.eval_pool` and keeps elites with `elitist_survival` (examples/distributed/simple_sync_distributed.py) completes for all selection, mutation and crossover operators that accept acceptable genomes, any number of workers in threads or processes, every order in which they finish, their own random numbers, and however often decoding or scoring raises. Everybody it returns has acceptable genes and is either viable with the problem's score of exactly these genes, or not viable with NaN because scoring these genes raises; there are as many as asked for, nobody appears twice and nothing older has changed. With an elite, for everybody of the evaluated initial population somebody not worse is returned, whichever coins decide between individuals that are not viable. If scores depend on the phenome alone, the outcome is the same in every order of completion.", "quantifier": "all operators, environments (copying, completion orders, worker random states), failing evaluations, generations and random draws", "why_tests_cant": "the interleavings of workers cannot be enumerated, and one lost result, swapped result or exception in a single generation breaks the run", "anchors": ["examples/distributed/simple_sync_distributed.py", "leap_ec/distrib/synchronous.py:eval_population", "leap_ec/distrib/synchronous.py:eval_pool", "leap_ec/distrib/evaluate.py:evaluate", "leap_ec/ops.py:elitist_survival"]}
{"id": "C125", "title": "What the k best really are", "statement": "`truncation_selection` and `elitist_survival` find the best with `heapq.nlargest`, which compares individuals with both `<` (which tosses a coin between two NaN fitnesses) and `==` (which has a tolerance between Python floats). Whenever no two Python float fitnesses are nearly equal without being equal, truncation keeps `size` best individuals, best first, and elitist survival returns as many individuals as there were offspring and the first of them ranks below no offspring and no parent, whatever the coins; with exact comparisons `nlargest(n, xs)` is `sorted(xs, reverse=True)[:n]`, ties included. Between nearly equal Python floats, a single elite is within one part in a billion of the best; but truncation can drop an individual better than one it keeps, elitism can lose the best, and over generations the elite's fitness can fall without bound.", "quantifier": "all populations, sizes, fitnesses (NaN and infinities included), coin tosses and whether the candidates have a length", "why_tests_cant": "the heap compares different pairs for every order of the candidates, and a drift shows only over unboundedly many generations", "anchors": ["leap_ec/ops.py:truncation_selection", "leap_ec/ops.py:elitist_survival", "leap_ec/individual.py:Individual.__lt__", "leap_ec/individual.py:Individual.__eq__", "leap_ec/problem.py:ScalarProblem.worse_than", "leap_ec/problem.py:ScalarProblem.equivalent"]}
{"id": "C126", "title": "Failing evaluations in multi-objective runs", "statement": "An evaluation that raises leaves the individual not viable with fitness NaN (RobustIndividual, DistributedIndividual), and a single-objective run goes on (C89, C124). Does a multi-objective run? As long as no evaluation has failed, `steady_state_nsga_2` goes exactly as it does for a problem that cannot fail (C85), for every order of completion; but the first failed evaluation that comes back ends the run with TypeError, whatever has happened before, whatever the inserter holds, and whether or not failures count as births: the fitness is the number NaN, not an array, nothing dominates it, so it enters the first layer, and the crowding distance subscripts it. Likewise a generation of `generalized_nsga_2` ends with TypeError if one of the offspring or parents has failed, whatever ranking function is used.", "quantifier": "all numbers of objectives, directions, histories, completion orders, pipelines, population sizes, ranking functions and choices of what fails", "why_tests_cant": "failures are rare and come at any moment of a run; a test sees one moment", "anchors": ["leap_ec/individual.py:RobustIndividual.evaluate", "leap_ec/multiobjective/asynchronous.py:ENLUInserter", "leap_ec/multiobjective/asynchronous.py:steady_state_nsga_2", "leap_ec/multiobjective/ops.py:per_rank_crowding_calc", "leap_ec/multiobjective/ops.py:crowding_distance_calc", "leap_ec/multiobjective/nsga2.py:generalized_nsga_2", "leap_ec/distrib/asynchronous.py:steady_state"]}
{"id": "C127", "title": "Selection by a parsimony key", "statement": "With `key=lexical_parsimony` or `key=koza_parsimony(penalty=c)` and fitnesses that are numbers (infinite ones included), the selection operators select by preference - fitter, and shorter only between equally fit; or fitter after the penalty - in the problem's direction: truncation keeps the most preferred, elitist survival never loses the most preferred, and a loop that ends each generation with truncation over offspring and parents ends with the most preferred of everybody it ever had. But a key bypasses the rule that a NaN fitness always loses (C01). A failed individual wins a tournament exactly when it is drawn first, whatever the others are, so tournaments of every size pick failed individuals as often as these are in the population; a failed child displaces any parent in `insertion_selection`; if the first `size` candidates of a truncation failed, nobody else is kept; if the first `k` parents failed, `k` elites save nobody who did not; and one failed child makes a (1 + 1) loop forget its best.", "quantifier": "all keys, penalties, populations, sizes, draws, directions and placements of failures", "why_tests_cant": "which of the individuals are compared depends on every order of the population", "anchors": ["leap_ec/parsimony.py:lexical_parsimony", "leap_ec/parsimony.py:koza_parsimony", "leap_ec/ops.py:truncation_selection", "leap_ec/ops.py:elitist_survival", "leap_ec/ops.py:tournament_selection", "leap_ec/ops.py:insertion_selection"]}
{"id": "C128", "title": "The ranking function of NSGA-II is interchangeable", "statement": "`generalized_nsga_2` does the same with `rank_func=fast_nondominated_sort` as with the default `rank_ordinal_sort`: from the same start and the same random numbers both runs return the same individuals in the same order with the same ranks and distances and leave everything else the same, or both raise the same exception at the same point - for every selection (which may read ranks and distances), every pipeline that clones, ends with an evaluation and makes at least one child, every stop condition, population size and number of generations. `fast_nondominated_sort` ends on every non-empty population, whatever comparisons answer and however often an individual occurs. The two differ outside of that: without offspring the default one completes the generation and the fast one raises; if one individual is parent and offspring at once (a pipeline without `clone`), the fast one may rank the worst individuals 0, and the worst survive.", "quantifier": "all configurations, pipelines, problems, memories, random numbers and numbers of generations", "why_tests_cant": "agreement over a whole run depends on every intermediate population, and the example notebook compares one seed", "anchors": ["leap_ec/multiobjective/nsga2.py:generalized_nsga_2", "leap_ec/multiobjective/ops.py:fast_nondominated_sort", "leap_ec/multiobjective/ops.py:rank_ordinal_sort"]}
{"id": "C129", "title": "Only the order of fitnesses matters", "statement": "Take two problems, the fitness of one being a strictly increasing function of the other's, or a strictly decreasing one with `maximize` reversed (minimizing f and maximizing -f). From the same start and the same random numbers, `generational_ea` with tournament selection and any elitism, hand-written loops with truncation or insertion, `multi_population_ea` with migration, and asynchronous and synchronous distributed runs in every order of completion do the same on both: they return the same individuals with the same genes, identities and parents, or raise the same exception, and everybody's fitness is the transformed one; failed evaluations stay NaN. `random_search` walks the same way whatever the fitnesses are replaced by. For Python floats, which count as equal within a relative billionth, this holds for every non-zero factor (with the direction reversed for a negative one) but not for adding a constant, which may change who wins a tournament. Fitness-proportional weights with `offset='pop-min'` do not depend on the unit or the zero of the fitness; with a number for the offset they depend on the zero, and on the values under other increasing functions.", "quantifier": "all problems, transformations, operators, populations, directions, random numbers, numbers of generations and orders of completion", "why_tests_cant": "a relation between two whole runs, for every transformation; a test compares one pair", "anchors": ["leap_ec/problem.py:ScalarProblem", "leap_ec/individual.py:Individual", "leap_ec/algorithm.py:generational_ea", "leap_ec/ops.py:tournament_selection", "leap_ec/ops.py:truncation_selection", "leap_ec/ops.py:insertion_selection", "leap_ec/ops.py:proportional_selection", "leap_ec/distrib/asynchronous.py:steady_state", "leap_ec/algorithm.py:multi_population_ea", "leap_ec/ops.py:migrate", "leap_ec/distrib/synchronous.py:eval_pool", "leap_ec/algorithm.py:random_search"]}
{"id": "C130", "title": "Units, zeros and signs of objectives do not matter to NSGA-II", "statement": "Express each objective of a multi-objective problem in another unit, from another zero or with the opposite sign and the direction reversed. From the same start and the same random numbers, `generalized_nsga_2` does the same on both problems: the same individuals in the same order with the same genes, ranks and distances, or the same exception. Pareto dominance and ranks are the same even if each objective is replaced by any strictly increasing function of it (or a strictly decreasing one with the direction reversed); distances, and with them the survivors, are not.", "quantifier": "all problems, scales and shifts per objective, operators, selections that do not look at fitness values, populations, random numbers and numbers of generations", "why_tests_cant": "a relation between two whole runs, for every change of units", "anchors": ["leap_ec/multiobjective/nsga2.py:generalized_nsga_2", "leap_ec/multiobjective/ops.py:rank_ordinal_sort", "leap_ec/multiobjective/ops.py:per_rank_crowding_calc", "leap_ec/multiobjective/ops.py:crowding_distance_calc"]}
{"id": "C131", "title": "No gene value and no place in the search space is preferred", "statement": "Put the genomes of a problem in another code, gene by gene: flip the bits at some positions (look for a hidden string instead of all ones), or move and stretch real coordinates (`TranslatedProblem`, `ScaledProblem`). If the initial genomes, the standard deviations and the hard bounds are put in the new code too, then from the same random numbers `generational_ea`, hand-written loops with truncation or insertion, `multi_population_ea` with migration, `generalized_nsga_2`, `random_search` and the asynchronous and synchronous distributed algorithms do the same on both problems: the same individuals with the same fitnesses, identities and parents and with their genomes in the other code, or the same exception. Bit-flip mutation, Gaussian mutation and both crossovers commute with the change of code. If the hard bounds are not moved, mutation differs.", "quantifier": "all problems, bit masks, translations and scales per gene, operators, populations, orders of completion, random numbers and numbers of generations", "why_tests_cant": "a relation between two whole runs, for every change of code", "anchors": ["leap_ec/algorithm.py:generational_ea", "leap_ec/distrib/asynchronous.py:steady_state", "leap_ec/binary_rep/ops.py:genome_mutate_bitflip", "leap_ec/real_rep/ops.py:genome_mutate_gaussian", "leap_ec/ops.py:UniformCrossover", "leap_ec/ops.py:NAryCrossover", "leap_ec/real_rep/problems.py:TranslatedProblem", "leap_ec/real_rep/problems.py:ScaledProblem", "leap_ec/real_rep/initializers.py:create_real_vector", "leap_ec/algorithm.py:multi_population_ea", "leap_ec/ops.py:migrate", "leap_ec/ops.py:truncation_selection", "leap_ec/ops.py:insertion_selection", "leap_ec/multiobjective/nsga2.py:generalized_nsga_2", "leap_ec/distrib/synchronous.py:eval_pool", "leap_ec/algorithm.py:random_search"]}
{"id": "C132", "title": "Individuals behave like plain values", "statement": "Operators change individuals in place and hand the same object from one to the next, and Dask may give a worker the object itself or a copy of it. Migration puts an object into a queue from which another island takes it. None of this is seen. `generational_ea`, `multi_population_ea` with migration, `generalized_nsga_2`, the asynchronous `steady_state`, a synchronous distributed run and an evolution loop written by hand around `pipe` with `truncation_selection` or `insertion_selection` do exactly what the same algorithm does over immutable values, in which every clone, mutation, crossover and evaluation makes a new value: the same populations with the same genes, fitnesses, identities, parents and viability, the same use of random numbers and the same exceptions. In particular it makes no difference which individuals were copied on the way to a worker.", "quantifier": "every configuration of stages, problem, decoder and budget, every initial memory and random source, every order in which workers finish and every choice of who is copied, for selection, insertion and survival that go by genes, fitness and viability", "why_tests_cant": "Aliasing shows only with a particular interleaving of clones, in-place changes and copies; a test sees one of them and usually runs all workers in the same process.", "anchors": ["leap_ec/individual.py:Individual.clone", "leap_ec/ops.py:clone", "leap_ec/ops.py:evaluate", "leap_ec/algorithm.py:generational_ea", "leap_ec/distrib/asynchronous.py:steady_state", "leap_ec/distrib/synchronous.py:eval_pool", "leap_ec/distrib/evaluate.py:evaluate", "leap_ec/multiobjective/nsga2.py:generalized_nsga_2", "leap_ec/ops.py:truncation_selection", "leap_ec/ops.py:insertion_selection", "leap_ec/algorithm.py:multi_population_ea", "leap_ec/ops.py:migrate"]}
{"id": "C133", "title": "The order of the genes matters only to n-ary crossover", "statement": "How a user numbers the genes of a problem does not matter as long as crossover is uniform. If the genes of a problem are put in any other order, and the random numbers, standard deviations and hard bounds of each gene go with it, then `generational_ea`, hand-written loops with truncation or insertion, `multi_population_ea` with migration, `generalized_nsga_2`, `random_search`, the asynchronous `steady_state` and synchronous distributed runs with bit-flip or Gaussian mutation and `UniformCrossover` do the same as before with the genes of every individual in the other order: same fitnesses, parents, survivors, exceptions. On a problem that only counts genes, such as `MaxOnes`, all positions are alike. `NAryCrossover` does look at the order: with one point a child that has two genes of a parent has all genes of that parent in between, so that a child possible in one order can be impossible in another.", "quantifier": "every length, order, problem, decoder, population size, number of generations, schedule and random source", "why_tests_cant": "It relates two runs with different random numbers for every permutation; the number of permutations alone is beyond any test, and an off-by-one at one end of a genome shows only in a statistical bias.", "anchors": ["leap_ec/binary_rep/ops.py:genome_mutate_bitflip", "leap_ec/real_rep/ops.py:genome_mutate_gaussian", "leap_ec/ops.py:UniformCrossover", "leap_ec/ops.py:NAryCrossover", "leap_ec/algorithm.py:generational_ea", "leap_ec/distrib/asynchronous.py:steady_state", "leap_ec/binary_rep/problems.py:MaxOnes", "leap_ec/algorithm.py:multi_population_ea", "leap_ec/ops.py:migrate", "leap_ec/ops.py:truncation_selection", "leap_ec/ops.py:insertion_selection", "leap_ec/multiobjective/nsga2.py:generalized_nsga_2", "leap_ec/distrib/synchronous.py:eval_pool", "leap_ec/algorithm.py:random_search"]}
{"id": "C134", "title": "A run can be stopped and restarted", "statement": "`start_generation` is documented for experiments that stop and restart an algorithm. If `generational_ea` or `generalized_nsga_2` is stopped at some generation, and the genomes of its population and the state of the random numbers are saved, then a second call, in the same or another process, with an initializer that returns the saved genomes, with the saved random state and with `start_generation` set to the generation reached, ends exactly as the first call would have ended without the stop: the same genes and fitnesses in the same order or the same exception, and the same random state. A larger `max_generations` never changes what happens before the smaller one is reached. Neither does a larger budget of `random_search`, whose trajectory then begins with that of the shorter search, or a larger number of generations of a synchronous distributed loop. The same holds of a loop written by hand around `pipe` with `truncation_selection` or `insertion_selection`, as in the examples, if it goes on with the number of the generation reached. `multi_population_ea` has no `start_generation` and does not return the migrants on their way: it continues exactly if it is called again with the same `migrate` operator after a multiple of the migration gap; with a new operator, or after another number of generations, it can go on differently. This needs a problem that is deterministic: the restarted run evaluates everybody once more.", "quantifier": "every configuration of selection, stopping rule, cloning, mutation and crossover, every deterministic problem, decoder, population size and generation at which the run is stopped, every memory of the second process", "why_tests_cant": "It relates two histories for every point of interruption; a test stops at one generation of one run, and hidden state carried from one generation to the next (in operators, identities, or fitnesses out of date) shows only in some.", "anchors": ["leap_ec/algorithm.py:generational_ea", "leap_ec/util.py:inc_generation", "leap_ec/representation.py:Representation.create_population", "leap_ec/individual.py:Individual.evaluate_population", "leap_ec/ops.py:elitist_survival", "leap_ec/multiobjective/nsga2.py:generalized_nsga_2", "leap_ec/ops.py:truncation_selection", "leap_ec/ops.py:insertion_selection", "leap_ec/algorithm.py:multi_population_ea", "leap_ec/ops.py:migrate", "leap_ec/algorithm.py:random_search", "leap_ec/distrib/synchronous.py:eval_pool"]}
