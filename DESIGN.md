# Design: a formal model of LEAP in Lean 4

This directory holds a machine-checked model of the evolutionary-computation library AureumChaos/LEAP (`/repo/leap_ec`,
Python) and proofs about it.

## Layout

* `properties.jsonl` – the properties, in English.
* `lean/Verif/Py/*.lean` – the small part of Python and numpy that is modelled (errors, `max`/`min`/`sorted`/`nlargest`,
  generators, masks, the object heap).
* `lean/Verif/Model/*.lean` – the model: one definition per Python function, each with a comment citing file and lines in
  `/repo`, and saying what is simplified.
* `lean/Verif/Spec/*.lean`, and `namespace Spec` sections at the top of the property files – small independent
  specifications used in the statements.
* `lean/Verif/Lemmas/*.lean` – helper lemmas.
* `lean/Verif/Props/*.lean` – the property theorems, with an `example` beside them showing that the hypotheses are met by a
  concrete non-trivial case.
* `MANIFEST.json` – which theorems settle which property.
* `seeded/LOG.jsonl` – wrong programs the theorems were tested against.

## Modelling conventions

* Exceptions are values: `PyM α = Except PyErr α`, one constructor per Python exception class, `userError n` for exceptions
  raised by user code.
* Randomness, worker completion order and user callbacks are explicit arguments over which every theorem quantifies
  universally. A Bernoulli mask comes from an arbitrary list of uniform numbers; `randrange(n)` is an arbitrary natural
  number below `n` (and an error for `n = 0`); a shuffle is an arbitrary permutation. The likelihood of draws is
  modelled in C95 and C96 only, where random numbers are equally likely fractions with any fixed denominator.
* Lists model Python lists, tuples and one-dimensional numpy arrays. Where aliasing is the point (C04, C05, C07, C25)
  objects live in an explicit heap and are passed by reference.
* Floats are rationals (`ℚ`) or reals (`ℝ`, where roots, exponentials or trigonometric functions occur), extended with
  ±∞ and NaN where the code treats them specially. Comparisons of floats are exact in Python, so ordering results carry
  over; arithmetic identities hold up to rounding. For the real decoder, mutation rates, initial vectors and the two
  fitness-proportional selections rounding is modelled too (C97–C99): every operation is followed by rounding to IEEE
  binary64, nearest even; overflow to infinity is left out there.
* Python `int` is unbounded. numpy's 64-bit integers are treated as unbounded except in C26–C28, where the range without
  overflow is part of the statement.
* Generators are state machines: a state type and a `next` function that yields, stops or raises. A `StopIteration` escaping
  from inside a generator becomes `RuntimeError` (PEP 479).
* Loops without a bound in the code (`while True`, event loops) are well-founded recursions, or take fuel over which the
  theorem quantifies.

## Properties: what is modelled and how it is proved

| id | title | status | model | how it is proved |
|----|----|----|----|----|
| C01 | NaN fitness always loses | proved | `Model/Compare`: `worse_than`, `equivalent` and the operators derived by `total_ordering`, on extended values with NaN; the coin is an argument | case analysis |
| C02 | Scalar ordering is a strict weak order in the optimisation direction | proved | `Model/Compare` | linear arithmetic over ℚ; strict weak order |
| C03 | The six comparison operators agree with one another | partial | `Model/Compare`, with the relative tolerance of `equivalent` | witness of disagreement; exact region of agreement; proof outside it |
| C04 | Cloning yields an independent, unevaluated offspring | proved | `Model/Individual`: heap of genome arrays and individuals; `clone` | frame reasoning on the heap |
| C05 | A reproduction pipeline that clones never alters its parents | proved | `Model/Pipeline`: selection, clone, mutation, crossover, evaluation and pool as heap transformers | invariant by induction over the pipeline and the pool size |
| C06 | Evaluation always scores the current genome | proved | `Model/Individual`: phenome cache, `evaluate`, `evaluate_population` | direct, induction over the population |
| C07 | Grouped evaluation agrees with one-by-one evaluation | partial | `Model/Individual`: `grouped_evaluate` | exact characterisation; witness of a stale phenome; agreement when caches are coherent |
| C08 | A failing evaluation never escapes a robust individual | proved | `Model/Individual`: `RobustIndividual.evaluate` | case analysis over every outcome of decoder and problem |
| C09 | Truncation selection keeps the best | proved | `Model/Selection`: `truncation_selection` over `Py/Order` | stable sort prefix |
| C10 | Elitist survival keeps size and never loses the best | proved | `Model/Selection`: `elitist_survival` | stable sort prefix, multiset counting |
| C11 | Tournament winners are the best of those sampled | proved | `Model/Selection`: `tournament_selection` | argmax with ties to the first; induction over the draws |
| C12 | Insertion selection lets every child compete | partial | `Model/Selection`: `insertion_selection` | witness of the early return; proof for one child |
| C13 | Cyclic selection is fair | proved | `Model/Selection`: `cyclic_selection`, `naive_cyclic_selection` | induction over the number of draws |
| C14 | Pool collects exactly the requested number | proved | `Model/Selection`: `pool`, `random_selection` | induction over the size |
| C15 | Fitness-proportional weights | proved | `Model/Proportional`: value extraction, offset, exponent, normalisation, wheel | exact sums over ℚ; interval of draws for each individual |
| C16 | Stochastic universal sampling is fair | partial | `Model/Proportional`: `sus_selection` | counting lemma for equally spaced points |
| C17 | Uniform crossover conserves genes per position | proved | `Model/Crossover`: `UniformCrossover` | pointwise over positions |
| C18 | N-point crossover conserves genes and uses the given cut points | partial | `Model/Crossover`: `NAryCrossover` | induction over the sections; witness for unequal lengths |
| C19 | The crossover operator neither loses nor duplicates children | proved | `Model/Pipeline`: the crossover generator with and without `persist_children` | induction over pulls and restarts |
| C20 | Bit-flip mutation | proved | `Model/Mutation`: `genome_mutate_bitflip` and its operator | pointwise over mask positions |
| C21 | Integer resampling mutation respects bounds | proved | `Model/Mutation`: `individual_mutate_randint` and its operator | pointwise |
| C22 | Binomial mutation respects bounds | proved | `Model/Mutation`: `genome_mutate_binomial`, `_binomial_p_from_std` over ℝ | pointwise; algebra with the square root |
| C23 | Gaussian mutation and hard bounds | proved | `Model/Mutation`: `genome_mutate_gaussian`, `apply_hard_bounds` | pointwise; clip lemmas |
| C24 | Mutation rate arguments are validated | proved | `Model/Mutation`: the argument checks of the mutation operators | case analysis |
| C25 | Segment operators keep the genome well formed | partial | `Model/Segmented`: segmented operators by value and by reference | induction over the segments; aliasing witness |
| C26 | Binary-to-integer decoding is exact, bijective and history-free | partial | `Model/Binary`: `BinaryToIntDecoder` with its cache as state | induction over decode histories; bit arithmetic |
| C27 | Gray decoding is a bijection with the adjacency property | proved | `Model/Binary`: Gray decoding | induction over the bits |
| C28 | Binary-to-real decoding covers the interval | proved | `Model/Binary`: `BinaryToRealDecoder` | linear arithmetic over ℚ |
| C29 | Binary benchmark functions have the advertised values and optima | proved | `Model/Binary`: MaxOnes, LeadingOnes, DeceptiveTrap, TwoMax | induction over bit lists |
| C30 | Generation counter | proved | `Model/Counters`: `inc_generation` | induction over call histories |
| C31 | Birth counter | proved | `Model/Counters`: `inc_births` | induction over call histories |
| C32 | Birth identifiers are unique | partial | `Model/Counters`: `birth_brander` as a state machine | invariant over histories; witness for clones |
| C33 | Step source selection | proved | `Model/Counters`: `get_step` | case analysis |
| C34 | Generational EA accounting and elitism | proved | `Model/Algorithm`: `generational_ea` for an arbitrary pipeline | induction over generations |
| C35 | Multi-population EA round robin | proved | `Model/Algorithm`: `multi_population_ea` | induction over generations and islands |
| C36 | Random search budget | proved | `Model/Algorithm`: `random_search` | induction over the budget |
| C37 | Island migration | proved | `Model/Migration`: `migrate` with its queues | invariant over arbitrary call histories |
| C38 | Averaged fitness | proved | `Model/Wrappers`: `AverageFitnessProblem`, `FitnessOffsetProblem` | induction over the samples |
| C39 | Alternating problem schedule | proved | `Model/Wrappers`: `AlternatingProblem` | modular arithmetic over arbitrary generations |
| C40 | Cooperative evaluation assembles the right team | proved | `Model/Wrappers`: `CooperativeEvaluate`, `CooperativeProblem` | list induction |
| C41 | Asynchronous steady-state birth budget | proved | `Model/Distrib`: `asynchronous.steady_state` with an arbitrary completion order | invariant over schedules |
| C42 | Asynchronous insertion keeps the population bounded and the best viable | proved | `Model/Distrib`: the two inserters | case analysis; multiset invariant |
| C43 | Pareto dominance is a strict partial order | proved | `Model/Pareto`: `MultiObjectiveProblem.worse_than` | order theory |
| C44 | Fast non-dominated sort assigns the true Pareto ranks | partial | `Model/NonDom`: `fast_nondominated_sort` | refinement to a peel-off specification of ranks |
| C45 | Rank ordinal sort agrees with the true Pareto ranks | proved | `Model/NonDom`: `rank_ordinal_sort` | refinement to the same specification |
| C46 | Crowding distance | partial | `Model/Crowding`: `crowding_distance_calc` | sorting lemmas; witnesses for singleton and constant ranks |
| C47 | NSGA-II keeps size and the first front | partial | `Model/NonDom`: `generalized_nsga_2` survival | multiset and rank reasoning; witness of a lost best |
| C48 | Incremental non-dominated level update | partial | `Model/Enlu`: `enlu_chain_...` level update | invariant over insertions; witness from three objectives on |
| C49 | CGP genomes stay feed-forward | proved | `Model/Cgp`: bounds, `check_constraints` | bounds arithmetic; induction over mutation histories |
| C50 | CGP pruning and execution | proved | `Model/Cgp`: decoding, pruning, execution | induction on node ids against an inductive evaluation relation |
| C51 | Pitt rule matching | proved | `Model/Rules`: `PittRulesDecoder`, `PittRulesExecutable` | argmin reasoning, invariants over the rule list |
| C52 | Best-so-far tracking | partial | `Model/Probe`: best-so-far probes | induction over histories; witness with the float tolerance |
| C53 | Diversity metrics | partial | `Model/Metrics`: diversity metrics, `num_fixated_metric` | algebra over ℚ; witness for the tolerance |
| C54 | Neural network decoding | proved | `Model/NeuralNet`: decoder, executable, graph | induction over the layers, in any semiring |
| C55 | Truth-table fitness | proved | `Model/TruthTable`: `TruthTableProblem` | induction over the number of inputs |
| C56 | Landscape feature ratios | proved | `Model/Ela`: `ELAConvexity`, random walks | counting; algebra |
| C57 | Empirical distributions | proved | `Model/Distribution`: histogram and Gaussian helpers | induction over the samples |
| C58 | Operator type checking | proved | `Model/OpTypes`: the operator decorators over tagged values | case analysis |
| C59 | Problem wrappers | partial | `Model/Transform`: translated, scaled and matrix-transformed problems, offsets | linear algebra; witness with the float tolerance |
| C60 | Seeded initialisation | proved | `Model/Transfer`: seeded initialisers | induction over the seeds |
| C61 | Parsimony pressure | proved | `Model/Parsimony`: `koza_parsimony`, `lexical_parsimony` | order theory |
| C62 | Initialisers respect lengths and bounds | proved | `Model/Segmented`, `Model/Mutation`: initialisers | pointwise |
| C63 | External-process evaluation matches answers to phenomes | partial | `Model/Wrappers`: `ExternalProcessProblem` as the text written and read | list induction; witness for an unterminated last line |
| C64 | Population creation | proved | `Model/Algorithm`: `Individual.create_population`, `Representation` | induction over the size |
| C65 | Synchronous distributed evaluation keeps the order | proved | `Model/Distrib`: `synchronous.eval_population` | map/gather order; permutation of completions |
| C66 | Steady-state NSGA-II inserter over its history | proved | `Model/Enlu`: `ENLUInserter` with its state | invariant over insertion histories |
| C67 | CSV probes write complete, aligned rows | proved | `Model/Probe`: `AttributesCSVProbe`, `FitnessStatsCSVProbe` as tables | induction over call histories |
| C68 | Random rotations | proved | `Model/Transform`: `random_orthonormal_matrix` | Gram–Schmidt over ℝ for arbitrary draws |
| C69 | Control problems evaluate by runs in the environment | partial | `Model/Environment`: `EnvironmentProblem` with an arbitrary environment | induction over steps and runs |
| C70 | Keyboard controller follows the keys | partial | `Model/Environment`: `KeyboardExecutable` | induction over key histories |
| C71 | Activation functions | proved | `Model/Activation`: sigmoid, softmax, relu over ℝ | analysis |
| C72 | Benchmark functions have the advertised values and optima | partial | `Model/Benchmarks`: the real-valued functions over ℝ | sums over coordinates; trigonometric bounds |
| C73 | The quadratic family has the minima it was built with | partial | `Model/Quadratic`: `QuadraticFamilyProblem`, `ParabaloidProblem` | positive-definite forms |
| C74 | Multiobjective benchmarks have the advertised Pareto sets | proved | `Model/Zdt`: SCH and ZDT1–6 | domination through the tail function; case analysis |
| C75 | ea_solve stays inside hard bounds and returns the best point tried | partial | `Model/EaSolve`: `ea_solve` end to end | invariant over generations on top of C34 |
| C76 | Distributed individuals: identifiers, failures on workers, and eval_pool | proved | `Model/DistIndividual`: world with the process-wide counter, worker evaluation, `eval_pool` over futures finishing in any order | invariants over histories and over completion orders |
| C77 | Distributed logs record exactly what they are shown | proved | `Model/DistIndividual`: the two logs as stream transformers | induction over the calls |
| C78 | Learning-curve analysis: area under the curve, maxima, averages | partial | `Model/Analysis`: frames as lists of rows over ℚ; group-by as sorted distinct keys | induction over the sorted points; the area as a sum independent of the order; counting of groups |
| C79 | CGP operators and initialisers keep genomes valid | proved | `Model/CgpOps` over `Model/Cgp` | pointwise over genes; validity from the bounds of each gene |
| C80 | Image problems measure agreement with the target image | proved | `Model/Images`: pixel tables, broadcasting, truncation | index arithmetic; sums of squares |
| C81 | The benchmark problems as users get them: default arguments, direction and bounds agree with the known optimum | proved | `Model/Defaults`: every constructor's default arguments, direction and class bounds, over `Model/Benchmarks` and `Model/Binary` | the optimum theorems of C66/C67 specialised; compactness of the box for existence |
| C82 | Logs of migrations and of cooperative trials record every event | proved | `Model/EventLog`: the two metrics as functions on an optional list of rows, beside `Model/Migration` and `Model/Wrappers` | induction over the calls and over the trials; simulation between logged and unlogged runs |
| C83 | Plot probes draw exactly the history they observed | partial | `Model/PlotProbes`: axes as lists of lines with a visible rectangle; probes as state machines over calls | induction over the calls; extent lemmas for min/max folds |
| C84 | Printing operators pass everything through and write exactly what they are told | partial | `Model/Printing`: streams as character lists, `print_individual` as a generator, the numpy string functions as state | induction over pulls, lines and calls |
| C85 | Steady-state NSGA-II keeps the Pareto front of everything it evaluated | proved | `Model/SteadyNsga2`: `steady_state` with an inserter that carries state, joined with the layered inserter | refinement to the stateless `steady_state`; invariant: layers represent the front of the history |
| C86 | Whole runs stay feasible, carry no stale fitness and keep the best | proved | `Model/EvoRun`: `generational_ea` over the object memory with the lazily pulled pipelines of `Model/Pipeline` | invariant per pull: every new object has acceptable genes and a true fitness or none; ownership of pending crossover children; induction over generations |
| C87 | Runs return, and what they return decodes | proved | `Model/EvoRun` as for C86, with `tournamentChoice` | progress lemma per operator on top of the ownership invariant of C86 (`Lemmas/Live`), induction over pulls and generations; composition with the decoder theorems of C28 and C49 |
| C88 | Islands keep their members apart and in order | proved | `Model/IslandRun`: `multi_population_ea` with `select, clone, stages, pool, migrate` over the object memory of C86 | invariant: everybody on an island or in a queue is a scored member, and the concatenation of all islands and queues has no duplicates; permutation lemmas for replacing one list of a list of lists; progress lemmas as in C87 |
| C89 | Asynchronous runs are sound for every completion order | proved | `Model/AsyncRun`: `steady_state` over the object memory of C86, with the completion order and the copying by Dask as parameters | invariant `AsyncOk` over all rounds; an exact effect lemma for `RobustIndividual.evaluate`; the best viable individual is never displaced by weak-order reasoning; potential argument for the end |
| C90 | NSGA-II runs keep feasible, truly scored individuals and select exactly by rank and crowding | proved | `Model/NsgaRun`: `generalized_nsga_2` over the object memory of C86 with vector fitness and rank and distance attributes by identity | the survivors theorem of C47 applied in every generation to the vectors read from memory; induction over generations with an inductive description of the run |
| C91 | Wrapped problems compare and evaluate predictably, to any depth of wrapping | proved | `Model/Towers`: an inductive type of problem objects built from the wrappers, with their constructors, comparisons, evaluation and fitness types | induction over the problem object; blocks of evaluations inside an average are regrouped by induction over their number |
| C92 | Plots of two-dimensional problems show the values of the problem on the whole grid | proved | `Model/Plot2d`: the grid, the vectorised evaluation and the checks of the two-dimensional plots, up to the arrays handed to Matplotlib | grid lines by properties of ceilings; the evaluations by induction over the points |
| C93 | Logging on distributed workers | proved | `Model/WorkerLog`: a process with the module's logger, its level and output, and the workers' logger attributes | induction over histories from the end |
| C94 | A saved repertoire is read back | proved | `Model/RepFile`: the CSV text written by `export` and the lines, fields and conversions of reading it | induction over the characters and rows |
| C95 | Random operators have the rates they are given | proved | the mutation, crossover and initialiser models, run on every outcome of the random numbers; `Spec/Chance`: a chance is the share of the outcomes | exact results per outcome (C19-C28), then counting: products over independent coordinates |
| C96 | Chances of being selected | proved | the selection models, run on every outcome of the random numbers | exact results per outcome (C13-C16), then counting; a swap of equal members is a bijection of outcomes; the points of all starts together are evenly spaced |
| C97 | Decoding to reals in floating point | proved | `Py/Float`: rounding to binary64; `Model/FloatOps`: the real decoder with every operation rounded; `Spec/Float`: what a double is | rounding is shown to be nearest-even, monotone and of relative error 2^-53; the four errors of a decoded value are added up |
| C98 | Rates and initial vectors in floating point | proved | `Model/FloatOps`: rates and uniform vectors with every operation rounded | relative errors; a product with a random number below 1 rounds below the width, so a width rounded up does no harm |
| C99 | Fitness-proportional selections in floating point | proved | `Model/FloatOps`: both selections with every operation rounded; `Spec/FloatSum`: the wheel as rounded | the loop invariants of C14-C16 with rounded sums in place of sums; sums err by at most a factor (1 ± 2^-53)^n |
| C100 | Whole runs of cooperative coevolution | proved | `Model/CoopRun`: `multi_population_ea` with `CooperativeEvaluate` over the object memory, combined individuals being objects too | the pipeline invariant of C86 with only held-back individuals owned (`Lemmas/Carry`); induction over trials, sub-populations and generations |
| C101 | An elitist run finds any genome its mutation can make | proved | the run of C86 with a random state in two parts: a stream of draws for the last mutation, and anything else | operators that ignore the stream are shown to do so (`Lemmas/Tape`); then induction over births, splitting the chance by the first draw, and over generations with the elitism of C86 |
| C102 | Whole runs of coevolution with a CooperativeProblem | proved | `CooperativeProblem.evaluate`, `evaluate_multiple`, `grouped_evaluate` and `multi_population_ea` over the object memory | what a stretch of evaluation may change is a relation that composes; then induction over trials, individuals, chunks, sub-populations and generations |
| C103 | Plots of the best rules and of the best network | proved | `PlotPittRuleProbe`, `GraphPhenotypeProbe`; a picture is what is handed to the drawing library | the rectangle of a rule by cases on the order of its bounds, then induction over rules and calls |
| C104 | Plots and reports of performance curves | proved | `CurvePlotter` and the commands `analyze`, `plot all`, `plot curves`, `plot avg-curves`, `plot auc` on data frames | the groups of a grouping are a permutation of the rows; a table keyed by time and experiment is regrouped by experiment |
| C105 | The t-test helper for Gaussian samples | proved | `equals_gaussian` with the statistic of `ttest_ind_from_stats` spelt out; the p-value function is a parameter | algebra on the squared statistic; the pooled variance is positive exactly when something varies |
| C106 | Colours made by the image primitives | proved | `cgp_art_primitives` on real numbers, in circuits decoded with parameters | inequalities for each primitive; a set closed under the primitives contains all values of a circuit, by induction on the evaluation |
| C107 | Selection favours the better | proved | the selection operators of C12-C16 with their draws | the expectation is a weighted mean whose weights are ordered like the keys: Chebyshev's sum inequality; the best of a contest is at least its first entrant |
| C108 | Random search as a walk | proved | `random_search` over memory with the operator pipelines of C50 | invariant of the loop: soundness, members with own fitness, a list without repetition; independent draws per step as in C101; a predicate closed under the mutation is kept |
| C109 | Runs do not depend on the history of the process | proved | `generational_ea`, `random_search`, `multi_population_ea` and `steady_state` over memory | simulation: every step behind older objects does what it does in an empty memory with all addresses moved; composed through pipelines and loops by induction |
| C110 | Crossover operators that keep children | proved | `Crossover.__call__` with `persist_children`, used again and again by `generational_ea` and `multi_population_ea` | ownership invariant of C86 with kept children; each draw makes one individual net of those kept; the last crossover alternates between holding and not holding |
| C111 | Records of parents form a family tree | proved | identities and sets of parents in `clone`, `Crossover`, `migrate`, `create_population`, through `generational_ea` and `multi_population_ea` | the view of memory (identities, parent sets) after any computation is the old one plus numbered entries; an iterator invariant bounds the parents of everybody held and handed out |
| C112 | Logs of a run are complete up to the moment of a crash | proved | `generational_ea` with a probe after the pipeline, over memory, for every outcome; `FitnessStatsCSVProbe` holding a reference to its best individual | the runs are unfolded into a history of generations and an end; frames of pipelines that hold also when they raise; rows recomputed in the final memory |
| C113 | Every run spends exactly its budget of evaluations | proved | all runs over memory (`generational_ea`, kept children, islands, random search, NSGA-II, both kinds of coevolution) with a tally in the store of random numbers | a cost judgement with lower and upper bounds for code that may raise, composed along pipelines and loops |
| C114 | Runs over segmented genomes | proved | a memory of individuals, genome lists and segment arrays; `deepcopy` with its memo; the operators of segmented_rep, `pool`, elitism and the loop of `generational_ea` | an invariant of fresh objects through every operator and crash, and a refinement to a computation with values |
| C115 | Islands with problems of their own | proved | individuals that hold a reference to their problem; `evaluate`, comparison, `migrate` with any customs stamp, `problem_stamp` of the example and the loop of `multi_population_ea` with a list of problems | twin pipelines for the refinement to one problem, and an invariant of residents and travellers through immigration, emigration, sweeps and the loop |
| C116 | Hand-written evolution loops | proved | the loops of simple_ep.py, simple_es.py and simple_ev.py over memory, with operators that may depend on the generation | the best of the kept and a brood are the best of everything, by induction over the broods; insertion by cases on the one place it treats |
| C117 | Evolution strategies find what they can mutate to | proved | as C116, with the random state split as in C101 | the chance that a whole brood misses, multiplied over the generations; a hit stays because of C116 |
| C118 | Runs on alternating problems | proved | generational_ea over memory with the problem, as evaluator and as comparison, chosen by the generation counter | induction over the generations with the scores of parents left open; a turn is rewritten into an ordinary run |
| C119 | Runs that learn rule systems only ever play legal actions | proved | `ruleRun`: the segmented run of C114 with `each` (the rule mutator), the rule decoder of C51 and the environment loop of C69 | legal rules are kept by C114; every legal rule set answers with an action, so the environment loop does not raise |
| C120 | Runs that evolve network controllers complete and play legal actions | proved | `netRun`: the run of C86 with the network decoder of C54, an argmax and the environment loop of C69 | genes stay in their bounds by C86; every genome of the right length decodes and answers with an action, so the environment loop does not raise |
| C121 | Runs that evolve circuits complete, and a perfect score means a correct circuit | proved | `circuitRun`: the run of C86 with the CGP decoder, initialiser, mutation and check of C49, C50 and C79, on the truth tables of C55 | valid genomes by C87; by induction on the nodes every source of a valid genome has a value, so calls do not fail; what a call returns is what the genome describes, by C50, so the count of C55 is the count of the rows on which the described circuit is right |
| C122 | Runs that evaluate in groups | partial | generational_ea over memory with grouped evaluation after the pool and for the initial population | what operators do to kept phenomes as an invariant of generators; induction over the generations |
| C123 | Runs that evolve images | proved | the run of the example over memory, circuits on arrays with numpy's pixelwise application, both mutations | arrays computed pixel by pixel by induction on the value of a wire; the run theorems of C86 and C87 with a positional invariant on the two segments |
| C124 | Synchronous distributed runs | proved | submission with or without pickling, evaluations in an order the environment chooses with random states it chooses, the loop of the example | induction over the order of completion with the evaluated part growing; loop invariant; a closed form of the memory after all evaluations that does not mention their order |
| C125 | What the k best really are | proved | heapq.nlargest with its heap, for a comparison with a state (coins) and a separate ==; truncation and elitist survival on top | heap with a hole as invariant of sifting, for any answers that respect a strict weak order; the k best of what has been seen as invariant of the loop; for exact comparisons the heap mirrors the stable sort |
| C126 | Failing evaluations in multi-objective runs | proved | the multi-objective inserter, crowding and the runs around them for fitnesses that are arrays or the number NaN | NaN rows dominate nobody and are dominated by nobody, so the start layer is the first and its crowding subscripts a number; induction over completions with all layers scored as invariant; equality with the earlier model when everything is scored |
| C127 | Selection by a parsimony key | proved | the two keys with infinities, NaN and NaN object identity; tuple comparison; nlargest with a key by its code; the four selection operators by key; the loop over broods | without NaN the keys are a strict weak order and nlargest is the stable sort, and the best of the best are the best of all; with NaN every comparison across is false, so max keeps its first argument's kind and a heap of failures admits only failures |
| C128 | The ranking function of NSGA-II is interchangeable | proved | the NSGA-II run over the object memory with the ranking function as a parameter, including everything either function writes that is read again | ranks by both functions are the non-domination rank, which is unique, and neither touches others; then induction over the generations with the invariant that the population is distinct and evaluated. The fast sort ends because each round takes at least one individual's positive counter to zero |
| C129 | Only the order of fitnesses matters | proved | the flat, hand-written and asynchronous runs over the object memory, on a problem and on the problem with every fitness replaced; the comparisons of individuals with NaN, infinities and the tolerance | each operation on the replaced memory is the operation on the memory, replaced (a simulation, by composition over binds, pipelines and loops); which replacements keep all comparisons is algebra |
| C130 | Units, zeros and signs of objectives do not matter to NSGA-II | proved | the NSGA-II run over the object memory on a problem and on the problem with every objective replaced | ranks are the unique non-domination ranks, and dominance is the same; ranges and gaps scale by the same factor, which cancels; the rest is the simulation of C129 |
| C131 | No gene value and no place in the search space is preferred | proved | the runs over the object memory with every genome array in another code | a simulation between the two runs, step by step, with the invariant that all genomes have one length; crossover commutes position by position, mutation by the arithmetic of its operator |
| C132 | Individuals behave like plain values | proved | the runs over the object memory, and beside them the same algorithms over immutable values | a simulation: those who may still be written to share nothing with anybody, so every write changes one value; a copy is a fresh object with the same value |
| C133 | The order of the genes matters only to n-ary crossover | proved | two runs over the object memory, one with every genome rearranged by a permutation | a simulation: all operators but n-ary crossover commute with the permutation; for n-ary crossover what one cut can do, and a child it cannot make |
| C134 | A run can be stopped and restarted | proved | the run over the object memory, three times: whole, up to the stop, and restarted in another memory | over plain values (C132), a simulation between populations that agree in genes and fitness and differ in identities; everybody's fitness is the true one, so evaluating once more changes nothing |

The theorem names are in `MANIFEST.json`; the full English statements are in `properties.jsonl`.

## Where the code does not do what the property says

For these the English claim is false of the code as it stands. The model keeps the code's behaviour, a theorem exhibits a
witness, and what does hold is proved beside it.

* C03: `a < b` and `b > a` differ for two floats within a relative 1e-9 – `gt_does_not_mirror_lt`
* C03: `==` of individuals is not transitive – `float_eq_not_transitive`
* C07: `grouped_evaluate` scores a cached phenome after the genome changed – `grouped_evaluate_stale`
* C07: problems that do not take the `individuals` keyword raise `TypeError` – `grouped_evaluate_refusals`
* C12: `insertion_selection` returns inside its loop, so only the first child competes – `insertion_ignores_later_children`
* C16: a random start of exactly 0 selects an individual of weight 0 – `sus_zero_start_chooses_weightless`
* C18: with a longer second parent genes are lost – `nary_crossover_loses_genes`
* C25: `copy_segment` shares the copied array with the original – `copy_segment_not_independent`
* C25: a wrong number of mutators raises `NameError` from the message of the assertion – `segmented_mutate_mismatch`
* C26: a segment of length 0 decodes the first time and raises afterwards – `binary_to_int_zero_segment_depends_on_history`
* C26: segments of 64 bits and more overflow – `binary_to_int_overflow`
* C32: clones of branded individuals keep their parent's birth identifier – `brander_clone_duplicates`
* C32: after the first individual the brander iterates over the individual instead of the generator – `branding_a_generator_fails`
* C36: a budget of 0 still evaluates one individual – `random_search_zero_budget`
* C44: an object that occurs twice in the population breaks the fast sort – `fast_sort_duplicate_object_wrong`
* C46: individuals that are alone in their rank are dropped – `crowding_loses_singleton`
* C47: the best individual of a single objective can be lost – `nsga2_loses_best`
* C48: the level update is wrong from three objectives on – `enlu_three_objectives_wrong`
* C50: the pruned circuit succeeds where the unpruned one raises – `cgp_prune_hides_exception`
* C51: memory registers cannot be used – `pitt_memory_unusable`
* C51: the initialiser for two-dimensional spaces leaves its own bounds – `pitt_create_rule_two_dimensional`
* C52: the best-so-far probes keep a champion that a later float beats by less than a relative 1e-9 – `best_so_far_float_tolerance`
* C53: a locus with variance up to 1e-8 counts as fixated – `num_fixated_counts_disagreement`
* C56: `linear_p` is always 0, since no absolute value is below a negative threshold – `linear_p_always_zero`
* C60: building a repertoire from a run that yields nothing raises – `build_repertoire_empty_run`
* C63: a last output line without a newline is ignored – `external_unterminated_line_ignored`
* C68: a one-dimensional rotation is never produced – `random_orthonormal_one_dimension`
* C69: `num_inputs` and `num_outputs` of an environment problem are `None` – `env_dimensions_none`
* C70: the default keymap leaves out the key 9 – `default_keymap_spec_partial`
* C73: a generated optimum can lie outside the bounds of its problem – `quadratic_generate_outside_bounds`
* C73: negative fitness bounds are accepted and falsify the recorded optimum – `quadratic_generate_not_optimum`
* C73: one-dimensional problems cannot be generated – `quadratic_generate_one_dimension`
* C55: a target that returns its argument is compared with the padded row – `tt_aliased_target`
* C54: shapes with fewer than two non-zero layers are accepted – `nn_degenerate`
* C59: adding a constant changes which individuals count as equal – `offset_changes_equality`
* C72: Schwefel's default offset leaves the optimum slightly below zero – `schwefel_default_optimum`
* C72: the Gaussian ignores its width and height – `gaussian_ignores_parameters`
* C72: the default `s` of Lunacek's function is negative in one dimension – `lunacek_default_s`
* C75: `ea_solve` can return a point worse than one it evaluated in the initial population – `ea_solve_forgets_initial_best`
* C78: with two rows at the same time the area depends on how the sort breaks the tie – `auc_ties_ambiguous`
* C78: the default arguments of the curve analyzer are always refused – `analyzer_defaults_refused`
* C83: a metrics plot probe on axes that already have lines overwrites those lines – `metrics_plot_shared_axes`
* C83: after a metric raised, x and y data of the plot differ in length – `metrics_plot_out_of_step`
* C83: the curve of a sum plot is refused for granularity below 1 and evaluates too long strings for negative counts – `ones_curve_surprises`
* C83: `ParetoPlotProbe2D` without axes raises `AttributeError` – `pareto_plot_refusals`
* C84: `_maybe_list` resets numpy's string functions to the default instead of restoring the previous ones – `array_text_not_restored`
* C92: keyword arguments given to `plot_2d_problem` for a contour plot raise `TypeError` – `contour_keywords_fail`
* C93: a process forked after the import logs the process number of its parent – `forked_worker_reports_parent`
* C94: a repertoire of binary genomes can be exported but not read – `binary_repertoire_unreadable`
* C95: binomial mutation is documented as centred on the old value but moves genes up on average – `binomial_not_centred`
* C97: in floating point a decoded value can exceed the upper bound of its segment – `decoded_above_bound`
* C98: in floating point asking for as many mutations as genes can give a rate below 1 – `full_rate_below_one`
* C99: in floating point stochastic universal sampling can raise IndexError on an ordinary population – `float_sus_index_error`
* C102: with `num_trials` above one and a selector that takes members in a fixed order, CooperativeProblem plays every trial with the same team – `cp_partners_repeat`
* C102: the default initial evaluation with a CooperativeProblem scores individuals in teams with members of an earlier run – `default_init_uses_leftovers`
* C103: the rule plot raises NameError with a modulo above one and ignores `plot_dimensions` – `rule_plot_surprises`
* C104: with more than ten experiments two of them share a colour in the legend – `curve_colours_clash`
* C104: `plot_avg_scalars` raises whatever it is given – `plot_avg_scalars_fails`
* C104: `analyze` merges runs that have the same job number in different files – `analyze_merges_files`
* C104: `plot avg-curves` refuses the file of averages that `analyze` writes – `averages_file_refused`
* C105: `equals_gaussian` uses the uncorrected standard deviation, so it rejects samples that the textbook t-test accepts – `equals_gaussian_not_textbook`
* C105: `equals_gaussian` answers False for constant samples that equal a reference without spread – `constant_samples_rejected`
* C106: with the standard image primitives pixel values can exceed 255 – `art_image_out_of_range`
* C107: `proportional_selection` and `sus_selection` check for negative values after exponentiation, so with an even exponent negative values are not refused and the worse is preferred – `even_exponent_prefers_worse`
* C108: the documented pipeline of `random_search` only ever visits two genomes – `documented_walk_two_genomes`
* C109: the list of travellers lives in the closure returned by `migrate`, so using the operator in a second run brings individuals of the first run into it – `reused_migrate_mixes_runs`
* C110: with `persist_children=True` the operators shared by the islands carry a child from one island to the next without migration – `kept_child_crosses_islands`
* C110: with `persist_children=True` a child kept in one run enters the next run that uses the same operator object – `kept_child_enters_next_run`
* C110: with the default `persist_children=False` and an odd `pool` size, each generation makes a child that is thrown away – `no_persist_run_wastes`
* C111: a pipeline that clones twice records as parent the clone in between, which no population held – `second_clone_hides_parent`
* C112: the best so far in the log of a run with elites can be worse than the best individual the run returns – `log_misses_elites`
* C114: segments copied by copy_segment stay one array in the child and, since deepcopy keeps sharing, in all its descendants: apply_mutation flips each of their bits twice, so that with rate 1 the genome does not change – `copied_segments_tied`
* C115: with the default customs stamp immigrants keep the problem and fitness of their old island, so that an island can end up with nobody who works on its own problem – `unstamped_islands_mix`
* C116: a loop with insertion_selection loses the best individual it evaluated, since only the first offspring of each brood competes – `insertion_run_loses_best`
* C118: an elite scored by the problem of an earlier turn stays ahead of individuals the present problem scores better – `alternating_elite_stale`
* C118: after a run that ends with a turn, max(final_pop) is the worst as the problem of the run sees it – `alternating_best_flips`
* C122: in a run that evaluates with grouped_evaluate no genome made by mutation or crossover is ever scored; fitnesses are those of the founders' genomes – `grouped_run_stale`
* C125: with Python float fitnesses 1.0, 1.0000000001 and 2.0, truncation to two keeps 2.0 and 1.0 – `truncation_drops_better`
* C125: with Python float parents 1.0 and 1.0000000001, one elite is 1.0 and the best individual is lost – `elitism_loses_best`
* C125: keeping one elite does not keep the fitness from falling: children a little worse than the elite replace it, below any bound after enough generations – `elitism_drifts_without_bound`
* C126: the first failed evaluation that comes back ends a steady_state_nsga_2 run with TypeError, although the worker caught the exception and count_nonviable is there to deal with failures – `steady_nsga2_failure_ends`
* C126: likewise a generation of generalized_nsga_2 – `nsga2_failure_ends`
* C127: with a parsimony key a tournament of any size picks failed individuals (NaN fitness) as often as a random choice would, although NaN is documented to lose always – `parsimony_tournament_chance`
* C127: with a parsimony key one failed child replaces the best individual of a (1 + 1) loop – `parsimony_forgets`
* C128: if an individual is parent and offspring at once, `fast_nondominated_sort` leaves dominated individuals at rank 0 and the worst survive, while `rank_ordinal_sort`, documented to give identical ranks, keeps the best – `no_clone_differ`
* C128: without offspring `fast_nondominated_sort` raises and `rank_ordinal_sort` does not – `no_offspring_differ`

## Trusted base

* Lean 4.33.0's kernel. The only axioms any theorem depends on are `propext`, `Classical.choice` and `Quot.sound`; the list
  below says which theorem uses which. No axiom is added, nothing is left to `sorry`, and no compiled evaluation is used.
* The definitions of Mathlib that occur in statements: `ℚ`, `ℝ`, `Real.sin/cos/exp/sqrt`, `Finset` sums, `Matrix`, lists.
* The reading of the Python source. Nothing here runs the code: the sandbox has none of its dependencies. Every definition
  cites the lines it models and says what it leaves out.
* The behaviour of libraries, as far as the model uses it: Python's `sorted`, `max`, generators; `heapq.nlargest` is taken as
  a sorted prefix in most of the model, which C125 derives from its code for comparisons that are exact and shows to fail otherwise; numpy's masks, `clip`, broadcasting of scalars, `argsort`, `reshape`, `dot`;
  toolz's `curry` and `pipe`; dask's `map`/`gather` order and `as_completed` (any completion order); networkx's graphs as node
  and edge lists in insertion order; pandas as tables of rows.

### Axioms of each property theorem

From `#print axioms` on every theorem of `MANIFEST.json`.

No axioms (5 theorems):
`array_text_not_restored`, `array_text_restored_partial`, `build_repertoire_empty_run`, `near_champion`, `plot_avg_scalars_fails`.

`propext` (80 theorems):
`analyzer_init_none`, `attr_fieldnames`, `attr_missing_attribute`, `attr_probe`, `best_so_far_iter_errors`, `binary_to_int_overflow`, `binary_to_int_short_genome`, `binary_to_int_zero_segment_depends_on_history`, `birth_counter_missing_entry`, `brand_refusals`, `branding_a_second_list_fails`, `branding_exhausted_generator`, `cat_csv_spec`, `cgp_call_wrong_inputs`, `cgp_check_operator`, `cgp_node_without_function`, `cgp_primitives_spec`, `clone_effect`, `clone_stage_ok`, `concat_combine_spec`, `copy_segment_empty`, `copy_segment_not_independent`, `create_segmented_total`, `crossover_no_persist_forgets`, `crossover_upstream_exhausted`, `cyclic_empty_stops`, `dataframe_is_stream`, `dataframe_refused`, `dist_clone_spec`, `dist_create_spec`, `dist_evaluate_spec`, `env_dimensions_none`, `evaluate_stage_ok`, `external_errors_partial`, `external_input_lines`, `external_unterminated_line_ignored`, `external_values`, `fast_sort_refusals`, `get_step_explicit`, `get_step_inferred`, `get_step_refused`, `hard_bounds_mismatch`, `inserters_recoded`, `inserters_reordered`, `insertion_empty_offspring_raises`, `insertion_empty_parents_raises`, `insertion_ignores_later_children`, `insertion_loses_second_child`, `kept_child_crosses_islands`, `kept_child_enters_next_run`, `keyboard_init_spec`, `log_pop_call`, `log_pop_history`, `log_worker_history`, `log_worker_missing`, `logged_run_transparent`, `max_value_spec`, `migration_errors`, `migration_keeps_size`, `mutating_without_clone_changes_parent`, `mutation_arguments_checked_first`, `mutation_arguments_checked_once`, `nary_crossover_too_short`, `pitt_decode`, `pitt_mutation_refusals`, `plus_loop_broods`, `pool_of_list`, `print_individual_echo`, `print_probe_spec`, `random_selection_empty_raises`, `repertoire_init`, `replace_if_spec`, `segmented_mutate_mismatch`, `selection_out_of_range`, `space_dimensions_value`, `task_run_wrong_count`, `tournament_errors`, `tournament_insert_spec`, `uniform_crossover_stage_ok`, `worker_message`.

`Quot.sound`, `propext` (129 theorems):
`active_unique`, `apply_repertoire_spec`, `argmax_spec`, `async_run_history_free`, `average_init_checks`, `best_so_far_iter`, `best_viable_never_lost`, `binary_repertoire_unreadable`, `birth_counter_history`, `births_unique_partial`, `brand_effect`, `brand_population_each`, `brander_clone_duplicates`, `branding_a_generator_fails`, `branding_a_list`, `cgp_constructor`, `cgp_decode_wrong_length`, `cgp_forward_reference_raises`, `cgp_parameters_decoder_spec`, `cgp_prune_hides_exception`, `clone_independent`, `clone_independent_of_parent`, `clone_spec`, `collect_distribution_raises`, `comment_lines`, `cooperative_problem_repeats_team`, `create_int_vector_in_bounds`, `create_int_vector_reversed`, `create_population_effect`, `create_population_raises`, `create_segmented_spec`, `crossover_persist_restarts`, `crossover_yields_individuals`, `curve_colours_differ`, `direction_unique`, `distributed_birth_ids`, `early_evaluate_overspends`, `enlu_three_objectives_wrong`, `env_constructor`, `eval_pool_missing_count`, `external_single`, `find_start_layer`, `find_start_layer_first`, `forked_worker_reports_parent`, `function_primitive_spec`, `generate_image_refusals`, `generation_counter_history`, `generational_budget`, `generational_ea_no_generation`, `generational_ea_pipeline_error`, `generator_exit`, `gray_decode_inverts`, `greedy_finds_nan`, `greedy_insert_spec`, `greedy_inserter_by_appearance`, `greedy_inserter_weakest`, `hard_bounds_monotone`, `hist_plot_spec`, `immigrate_inds_spec`, `index_exact`, `insertion_single_child_partial`, `insertions_bounded`, `island_budget`, `island_run_history_free`, `iteriter_checked`, `iterlist_checked`, `keyboard_action_spec`, `listiter_checked`, `listlist_checked`, `log_numbers`, `longer_run_begins_alike`, `map_gather_order`, `matrix_ragged_rejected`, `max_ones_value`, `metrics_plot_refusals`, `migration_metric_start`, `migration_never_worsens`, `migration_no_loss`, `migration_processes_each_once`, `migration_sends`, `multi_population_errors`, `naive_cyclic_order`, `nary_crossover_loses_genes`, `nn_call_empty_activation`, `nn_degenerate`, `pareto_plot_refusals`, `persist_budget`, `persist_off_pipeline`, `persist_pipeline_accounts`, `pitt_constructor_refusals`, `pitt_create_rule_refusals`, `pitt_mutate`, `pool_exact`, `pool_raises`, `print_population_spec`, `random_search_empty_pipeline`, `random_search_zero_budget`, `random_selection_yields_drawn`, `rank_ordinal_empty`, `repertoire_lines`, `repertoire_round_trip`, `repertoire_stable`, `robust_pipeline_budget`, `row_assignment`, `row_edges_spec`, `rule_mutator_legal`, `seeded_spec`, `space_dimensions_spec_partial`, `stateful_unit`, `stats_cells_true`, `steady_state_accounting`, `steady_state_budget`, `steady_state_inserts_each_once`, `stop_at_generation_iff`, `swapMask_reordered`, `sync_budget`, `sync_longer_run_begins_alike`, `sync_run_history_free`, `tournament_by_appearance`, `tournament_inserter`, `tournament_inserter_by_appearance`, `tt_constructor`, `uniform_crossover_length_mismatch`, `walk_budget`, `walk_longer_run_begins_alike`, `walk_run_history_free`, `worker_plugin`, `wrapper_decoder_spec`, `wrapping_refusals`.

`Classical.choice`, `Quot.sound`, `propext` (712 theorems):
`ackley_spec`, `add_segment_effect`, `alternating_best_flips`, `alternating_elite_stale`, `alternating_refusals`, `alternating_run_returns`, `alternating_run_scores`, `alternating_schedule`, `alternating_scores`, `alternating_turn_is_run`, `alternating_turn_keeps_best`, `alternating_turns_follow`, `alternation_reverses`, `analyze_exact`, `analyze_merges_files`, `analyzer_defaults_refused`, `analyzer_init_spec`, `answers_unique`, `apply_mutation_each`, `apply_mutation_empty`, `apply_mutation_shape`, `arange_spec`, `art_circuit_colours`, `art_image_out_of_range`, `art_keeps_colours`, `art_leaves_colours`, `art_order`, `art_unit_pixels`, `async_budget`, `async_depends_on_order`, `async_greedy_depends_on_order`, `async_recoded`, `async_reordered`, `async_run_as_values`, `async_run_copy_free`, `async_run_ends`, `async_run_ok`, `async_run_returns`, `attr_row`, `auc_bounds`, `auc_empty`, `auc_is_step_area_partial`, `auc_measures_runs`, `auc_order_irrelevant_partial`, `auc_ties_ambiguous`, `average_charges`, `average_is_mean_of_n`, `average_multiple_agrees`, `average_multiple_too_few`, `average_multiple_value`, `average_of_deterministic`, `averaged_budget`, `averaged_kind`, `averages_file_refused`, `avg_curves_spec`, `avg_scalar_spec`, `bad_rate_raises`, `below_near`, `best_of_gen_spec`, `best_so_far_float_tolerance`, `best_so_far_history`, `best_so_far_history_partial`, `best_so_far_step`, `best_viable_never_lost_scalar`, `binary_init_chance`, `binary_run_returns_feasible`, `binary_to_int_injective`, `binary_to_int_range`, `binary_to_int_surjective`, `binary_to_int_value_partial`, `binomial_mean`, `binomial_mutation_bounded`, `binomial_not_centred`, `binomial_p_has_std`, `binomial_stage_ok`, `bit_problems_count`, `bitflipFn_keepsLength`, `bitflip_chance`, `bitflip_expected`, `bitflip_flips_drawn`, `bitflip_fn_exact`, `bitflip_hits`, `bitflip_involutive`, `bitflip_keeps_binary`, `bitflip_mean`, `bitflip_recoded`, `bitflip_reordered`, `bitflip_search_converges`, `bitflip_stage_live`, `bitflip_stage_ok`, `bitflip_walk_converges`, `build_repertoire_spec`, `cartesian_plot_history`, `cgp_bounds_nonempty`, `cgp_call`, `cgp_call_history_free`, `cgp_check_spec`, `cgp_created_valid`, `cgp_decode_feed_forward`, `cgp_evolved_valid`, `cgp_genome_mutate_spec`, `cgp_initializers_spec`, `cgp_mutate_no_decoder`, `cgp_mutate_operator`, `cgp_mutated_valid`, `cgp_parameters_call`, `cgp_parameters_initialize_spec`, `cgp_primitive_exact`, `cgp_prune_same_outputs`, `cgp_prune_total`, `cgp_run_decodes`, `checked_chain`, `circuit_completes`, `circuit_run_completes`, `circuit_run_members`, `clone_with_fitness_spec`, `collect_distribution_spec`, `combined_file_plots`, `constant_samples_rejected`, `contour_keywords_fail`, `contour_table_refusals`, `contour_table_spec`, `convex_p_spec`, `coop_budget`, `coop_evaluate_exact`, `coop_group_pipeline_spec`, `coop_group_run_members`, `coop_partners_rotate`, `coop_pipeline_spec`, `coop_problem_budget`, `coop_run_members`, `coop_zero_trials`, `cooperative_evaluate_no_trials`, `cooperative_evaluate_spec`, `cooperative_log_transparent`, `cooperative_log_trial`, `cooperative_must_be_outermost`, `cooperative_outermost`, `cooperative_problem_logging`, `cooperative_problem_refusals`, `cooperative_problem_spec`, `cooperative_unlogged`, `copied_segments_tied`, `copy_segment_effect_partial`, `cosine_family_spec`, `cp_evaluate_exact`, `cp_partners_repeat`, `createRealVector_recoded`, `create_binary_sequence_spec`, `create_population_spec`, `create_real_vector_in_bounds`, `cross_nary_effect`, `cross_uniform_effect`, `crossover_pair`, `crowd_layers_empty`, `crowding_bounded`, `crowding_calc_failed_raises`, `crowding_calc_partial`, `crowding_empty_rank`, `crowding_extremes`, `crowding_failed_raises`, `crowding_loses_singleton`, `crowding_nonneg`, `crowding_refusals`, `curve_colours_clash`, `cyclic_each_tour_is_permutation`, `deceptive_trap_shape`, `decoded_above_bound`, `decreasing_keeps_order`, `default_best_cosine`, `default_best_origin`, `default_best_schwefel`, `default_best_shekel`, `default_best_step`, `default_best_strings`, `default_best_valleys`, `default_init_needs_context`, `default_init_uses_leftovers`, `default_keymap_spec_partial`, `default_langermann`, `direction_compares`, `distances_units`, `documented_walk_two_genomes`, `dominates_turned`, `drop_most_crowded`, `ea_depends_on_order`, `ea_recoded`, `ea_reordered`, `ea_solve_errors`, `ea_solve_forgets_initial_best`, `ea_solve_spec_partial`, `ela_affine`, `ela_combine_exact`, `ela_convex`, `ela_deltas`, `ela_ratio_exact`, `elitism_drifts_without_bound`, `elitism_loses_best`, `elitist_any_coins`, `elitist_extends_argument`, `elitist_never_loses_best`, `elitist_survivors`, `emigrate_inds_spec`, `enlu_conserves`, `enlu_failed_raises`, `enlu_first_front`, `enlu_history`, `enlu_insert_step`, `enlu_keeps_front`, `enlu_overflow_loses_front`, `enlu_scored`, `enlu_two_objectives_partial`, `enlu_two_objectives_ranks_partial`, `env_evaluate_spec`, `env_survival_range`, `equal_means_accepted`, `equals_gaussian_exact`, `equals_gaussian_invariant`, `equals_gaussian_monotone`, `equals_gaussian_not_textbook`, `equals_uniform_spec`, `eval_pool_exhausted`, `eval_pool_spec`, `evaluate_population_raises`, `evaluate_population_spec`, `evaluate_raises`, `evaluate_scores_current_genome`, `evaluates_unique`, `even_exponent_prefers_worse`, `evo_loop_generations`, `evo_loop_members`, `evo_run_as_values`, `evo_run_generations`, `evo_run_history_free`, `evo_run_lineage`, `evo_run_members`, `evo_run_returns`, `exPlusSearch_converges`, `exSearch_converges`, `expected_rate_out_of_range`, `family_tree_rooted`, `fast_sort_duplicate_object_wrong`, `fast_sort_ends`, `fast_sort_first_front_partial`, `fast_sort_ranks_partial`, `fitness_plot_history`, `float_decode_genome`, `float_decode_segment`, `float_eq_not_transitive`, `float_gt_iff`, `float_gt_transitive`, `float_models_exact`, `float_proportional`, `float_proportional_near`, `float_proportional_refuses`, `float_rate`, `float_sum_error`, `float_sus_breaks`, `float_sus_index_error`, `float_sus_pass`, `float_sus_safe`, `float_vector_in_bounds`, `float_vector_upper`, `full_rate_below_one`, `gaussian_fn_exact`, `gaussian_ignores_parameters`, `gaussian_keeps_box`, `gaussian_mean`, `gaussian_mutation_bounded`, `gaussian_needs_rate`, `gaussian_negative_std`, `gaussian_recoded`, `gaussian_reordered`, `gaussian_spec_partial`, `gaussian_stage_live`, `gaussian_stage_ok`, `gene_order_irrelevant`, `generate_image_spec`, `generation_in_context`, `generation_same`, `generational_ea_best_never_worsens`, `generational_ea_full_run`, `generational_ea_run`, `genome_rate_exact`, `graph_plot_history`, `gray_adjacent`, `gray_decode_injective`, `gray_decode_value`, `greedy_inserter`, `griewank_spec`, `grouped_cooperate_exact`, `grouped_evaluate_agrees_partial`, `grouped_evaluate_default_problem`, `grouped_evaluate_exact`, `grouped_evaluate_mixed_problems`, `grouped_evaluate_refusals`, `grouped_evaluate_stale`, `grouped_run_completes`, `grouped_run_initial_partial`, `grouped_run_scores_founders`, `grouped_run_stale`, `gt_does_not_mirror_lt`, `gt_mirrors_lt_partial`, `hard_bounds_enforced`, `hard_bounds_idempotent`, `header_text_agrees`, `header_text_columns`, `hidden_string_irrelevant`, `image_circuit_pixelwise`, `image_problem_spec`, `image_run_completes`, `image_run_members`, `image_score`, `image_xy_fitness`, `image_xy_optimum`, `image_xy_refusals`, `immigrate_task_spec`, `increasing_keeps_order`, `inserters_return`, `insertion_first_only`, `insertion_keeps_few`, `insertion_run_loses_best`, `island_loop_generations`, `island_restart_continues`, `island_run_as_values`, `island_run_lineage`, `island_run_members`, `island_run_returns`, `islands_depend_on_order`, `islands_recoded`, `islands_reordered`, `islands_restarted_anew_differ`, `islands_restarted_out_of_step_differ`, `koza_parsimony_cases`, `koza_parsimony_spec`, `langermann_spec`, `leading_ones_not_counting`, `leading_ones_target`, `leading_ones_value`, `legal_rules_control`, `lexical_parsimony_spec`, `linear_p_always_zero`, `log_misses_elites`, `logged_run_any_outcome`, `loop_depends_on_order`, `loop_recoded`, `loop_reordered`, `lt_iff_better`, `lt_other_exact`, `lt_strict_weak_order`, `lunacek_default_s`, `lunacek_spec`, `matrix_compose`, `matrix_constructor`, `matrix_spec`, `matrix_too_many_rows`, `maxOnes_target_reordered`, `max_ones_target`, `maximize_reverses`, `metrics_plot_history_partial`, `metrics_plot_out_of_step`, `metrics_plot_shared_axes`, `migration_log_call`, `migration_log_history`, `migration_metric_clash`, `migration_metric_row`, `multi_population_run`, `mutate_binomial_step`, `mutate_bitflip_step`, `mutate_gaussian_step`, `mutate_ind_effect`, `mutate_randint_step`, `nan_always_loses`, `nan_vs_nan_is_coin`, `nary_crossover_alternates`, `nary_crossover_gene_pool_partial`, `negating_keeps_order`, `net_controls`, `net_run_completes`, `net_run_members`, `nlargest_is_topk`, `nlargest_kbest`, `nlargest_picks_by_appearance`, `nlargest_ranks_by_appearance`, `nn_call`, `nn_constructor`, `nn_decode`, `nn_decoded_call`, `nn_graph`, `nn_sizes`, `no_clone_differ`, `no_mutation_no_new_genes`, `no_offspring_differ`, `no_persist_run_wastes`, `noisy_quartic_spec`, `noisy_restart_differs`, `none_is_worst`, `nonlinear_changes_survivors`, `normalize_dicts_spec`, `nsga2_failure_ends`, `nsga2_initial_failure_ends`, `nsga2_keeps_first_front_partial`, `nsga2_loses_best`, `nsga2_loses_everybody`, `nsga2_never_grows`, `nsga2_no_failure`, `nsga2_run`, `nsga2_single_objective`, `nsga2_survivors`, `nsgaRunBy_ordinal`, `nsga_budget`, `nsga_constant_extinct`, `nsga_flat_run`, `nsga_generation_returns`, `nsga_generation_spec`, `nsga_longer_run_begins_alike`, `nsga_recoded`, `nsga_reordered`, `nsga_restart_continues`, `nsga_run_as_values`, `nsga_run_lineage`, `nsga_run_members`, `nsga_run_refuses`, `nsga_run_returns`, `nsga_survivors_as_values`, `nsga_units_irrelevant`, `num_fixated_counts_disagreement`, `num_fixated_integer_partial`, `num_fixated_spec`, `odd_exponent_refuses`, `offset_changes_equality`, `offset_exact_partial`, `offset_problem_keeps_order`, `offset_problem_value`, `offset_spec`, `one_point_chance`, `one_point_keeps_between`, `one_point_order_matters`, `ones_curve_spec`, `ones_curve_surprises`, `pairwise_metric_spec`, `parabaloid_shape`, `parabaloid_sizes`, `parabaloid_spec`, `pareto_failed_incomparable`, `pareto_nan_incomparable`, `pareto_operators`, `pareto_plot_call`, `pareto_plot_undrawable`, `pareto_refusals`, `pareto_strict_order`, `pareto_worse_than_spec`, `parsimony_elites_failed`, `parsimony_elitism`, `parsimony_forgets`, `parsimony_history`, `parsimony_insertion`, `parsimony_order`, `parsimony_single`, `parsimony_tournament`, `parsimony_tournament_chance`, `parsimony_truncation`, `parsimony_truncation_failed`, `per_rank_crowding`, `per_rank_distance`, `persist_pipeline`, `persist_pipeline_held`, `persist_run_accounts`, `persist_run_members`, `pipeline_keeps_feasible`, `pipeline_leaves_parents_alone`, `pipeline_lineage`, `pipeline_parents_keep_genes_fitness_lineage`, `pipeline_returns`, `pitt_bounds_exact`, `pitt_call_no_rules`, `pitt_call_refusals`, `pitt_create_rule`, `pitt_create_rule_two_dimensional`, `pitt_exact_match`, `pitt_genome_to_rules`, `pitt_memory_unusable`, `pitt_nearest`, `pitt_wildcard`, `pkey_lt_failed`, `plain_or_team`, `plot_all_exact`, `plot_avg_curves_exact`, `plot_curves_exact`, `plot_deterministic`, `plot_heights`, `plot_problem_defaults`, `plot_refusals`, `plot_scalars_exact`, `plus_bitflip_converges`, `plus_broods_members`, `plus_budget`, `plus_dominates_history`, `plus_keeps_best_ever`, `plus_loop_chance`, `plus_restart_continues`, `plus_run_as_values`, `plus_run_chance`, `plus_run_history_free`, `plus_run_lineage`, `plus_run_members`, `plus_run_returns`, `population_values_num`, `population_values_pop_min`, `positions_alike`, `print_list_spec`, `proportional_chance`, `proportional_depends_on_values`, `proportional_draw_interval`, `proportional_errors`, `proportional_popMin_affine`, `proportional_pressure`, `proportional_scale`, `proportional_weights_normalised`, `quadratic_family_lengths`, `quadratic_family_optima`, `quadratic_family_value`, `quadratic_generate_not_optimum`, `quadratic_generate_one_dimension`, `quadratic_generate_optima`, `quadratic_generate_outside_bounds`, `quadratic_generate_refused`, `quadratic_generate_spec_partial`, `randintFn_keepsLength`, `randint_bounds_mismatch`, `randint_chance`, `randint_fn_exact`, `randint_hits`, `randint_keeps_action`, `randint_resamples`, `randint_reversed_bounds`, `randint_stage_live`, `randint_stage_ok`, `randint_stays_in_bounds`, `random_orthonormal_one_dimension`, `random_orthonormal_spec`, `random_rotation_spec`, `random_search_budget`, `random_search_trajectory`, `rank_exists_unique`, `rank_func_irrelevant`, `rank_functions_same`, `rank_ordinal_ranks`, `ranks_below_iff`, `ranks_depend_on_order`, `rastrigin_spec`, `rate_check_exact`, `real_decode_in_bounds`, `real_decode_interval`, `real_decoder_refusals`, `real_init_checks`, `relu_spec`, `remove_segment_effect`, `restart_continues`, `reused_migrate_mixes_runs`, `robust_evaluate_never_raises`, `robust_exception_not_cleared`, `rosenbrock_spec`, `rounded_unique`, `rounding_error`, `rounding_nearest`, `rule_distance_zero_iff`, `rule_init_legal`, `rule_plot_exact`, `rule_plot_matches`, `rule_plot_surprises`, `rule_run_completes`, `rule_run_legal`, `scalar_per_run_spec`, `scaled_box`, `scaled_run`, `scaled_spec`, `scaling_keeps_order`, `scatter_plot_refusals`, `sch_front`, `schwefel_default_optimum`, `schwefel_spec`, `search_loop_chance`, `search_run_chance`, `second_clone_hides_parent`, `seg_act_by_value`, `seg_clone_keeps_sharing`, `seg_loop_completes`, `seg_loop_counted`, `seg_loop_isolated`, `seg_loop_keeps_best`, `seg_loop_proper`, `seg_pipeline_by_value`, `seg_pipeline_completes`, `seg_pipeline_counted`, `seg_pipeline_isolated`, `seg_pipeline_proper`, `seg_run_completes`, `seg_run_counted`, `seg_run_proper`, `segmented_decode_value`, `segmented_mutate_each`, `segmented_mutate_shape`, `shekel_spec`, `shift_changes_tournament`, `sigmoid_spec`, `single_elite_within_tolerance`, `softmax_distribution`, `softmax_value`, `sort_by_dominance_spec`, `sorts_agree`, `spheroid_spec`, `stateful_is_steady`, `stats_errors`, `stats_history`, `stats_log_any_outcome`, `stats_row_columns`, `stats_start`, `steady_nsga2_budget`, `steady_nsga2_failure_ends`, `steady_nsga2_inserts`, `steady_nsga2_no_failures`, `steady_nsga2_population`, `steady_nsga2_reached`, `steady_nsga2_total`, `steady_state_terminates`, `step_spec`, `stepsBelow_unique`, `stochastic_equals_spec`, `submitAll_spec`, `sum_of_variances_spec`, `sum_plot_history`, `survivors_same`, `sus_chance`, `sus_errors`, `sus_pass_fair_partial`, `sus_point_beyond_wheel`, `sus_pressure`, `sus_step_exact`, `sus_zero_start_chooses_weightless`, `sync_depends_on_order`, `sync_evaluate_ok`, `sync_evaluate_order_free`, `sync_recoded`, `sync_reordered`, `sync_run_as_values`, `sync_run_completes`, `sync_run_copy_free`, `sync_run_members`, `sync_run_order_free`, `task_pipeline_eq`, `task_run_members`, `task_run_returns`, `tournament_chance`, `tournament_choice_picks`, `tournament_pressure`, `tournament_pressure_strict`, `tournament_restart_continues`, `tournament_ties`, `tournament_winner`, `translated_optimum`, `translated_random_exact`, `translated_random_spec`, `translated_run`, `translated_spec`, `truncation_any_coins`, `truncation_drops_better`, `truncation_keeps_best`, `truncation_koza`, `truncation_lexical`, `truncation_pressure`, `truncation_ties_keep_earlier`, `tt_aliased_target`, `tt_enumerate`, `tt_fitness`, `tt_identity_target`, `tt_padding_needs_num_inputs`, `tt_returns`, `two_max_value`, `unevaluated_comparison_raises`, `uniform_crossover_bad_probability`, `uniform_crossover_chance`, `uniform_crossover_swaps`, `unmoved_bounds_differ`, `unstamped_islands_mix`, `walk_chance`, `walk_each_from_previous`, `walk_ignores_fitness`, `walk_recoded`, `walk_reordered`, `walk_run_lineage`, `walk_trajectory`, `weierstrass_spec`, `weighted_choice_refusals`, `worker_evaluates`, `worker_log_level`, `worker_logger`, `wrapped_compares`, `wrapped_deterministic`, `wrapped_equality`, `wrapped_value`, `zdt1_front`, `zdt2_front`, `zdt3_front`, `zdt4_front`, `zdt5_front`, `zdt6_front`, `zdt_bounds`, `zdt_length_unchecked`, `zdt_ranges`, `zdt_refusals`, `zdt_values`.

## Modelled and not modelled, function by function

`M`: functions with at least one model definition citing their body. `–`: functions without one, with the reason.
Abstract methods, `__str__`/`__repr__` and constructors that only store their arguments are left out of the second list.

* `algorithm.py`
  * M: generational_ea, multi_population_ea, random_search, stop_at_generation
* `binary_rep/decoders.py`
  * M: BinaryToIntDecoder.__init__, BinaryToIntDecoder.decode, BinaryToIntDecoder.__binary_to_int, BinaryToRealDecoderCommon.__init__, BinaryToRealDecoderCommon.decode, BinaryToRealDecoder.__init__, BinaryToIntGreyDecoder.__gray_encode, BinaryToIntGreyDecoder.decode, BinaryToRealGreyDecoder.__init__
  * –: BinaryToIntDecoder.__binary_to_str, BinaryToIntGreyDecoder.__init__ (string conversion is modelled by its value; the constructor only forwards)
* `binary_rep/initializers.py`
  * M: create_binary_sequence
* `binary_rep/ops.py`
  * M: mutate_bitflip, genome_mutate_bitflip
* `binary_rep/problems.py`
  * M: MaxOnes.__init__, MaxOnes.evaluate, LeadingOnes.__init__, LeadingOnes.evaluate, DeceptiveTrap.__init__, DeceptiveTrap.evaluate, TwoMax.__init__, TwoMax.evaluate, ImageProblem.evaluate
  * –: ImageProblem.__init__, ImageProblem._process_image (image files are not read in the model)
* `contrib/analysis.py`
  * M: max_value, auc, CurveAnalyzer.__init__, CurveAnalyzer.avg_curves, CurveAnalyzer.scalar_metrics_per_run, CurveAnalyzer.avg_scalar_metrics, CurvePlotter.plot_curves, CurvePlotter.plot_avg_curves, CurvePlotter.plot_scalars_bar, CurvePlotter.plot_avg_scalars, analyze, all, curves, avg_curves, auc_command, cat_csv_files
  * –: CurvePlotter.__init__, cli, plot (plotting and the command line)
* `contrib/transfer/sequential.py`
  * M: PopulationSeedingRepertoire.__init__, PopulationSeedingRepertoire.build_repertoire, PopulationSeedingRepertoire.export, PopulationSeedingRepertoire.apply, initialize_seeded
  * –: Repertoire.build_repertoire, Repertoire.apply (abstract methods; storing arguments; writing a CSV file)
* `data.py`
  * –: _build_test_pop (test data)
* `decoder.py`
  * M: Decoder.decode, IdentityDecoder.__init__, IdentityDecoder.decode
* `distrib/asynchronous.py`
  * M: eval_population, replace_if, tournament_insert_into_pop, greedy_insert_into_pop, steady_state
* `distrib/evaluate.py`
  * M: evaluate, is_viable
* `distrib/individual.py`
  * M: DistributedIndividual.__init__, DistributedIndividual.clone
* `distrib/logger.py`
  * M: EvaluatorLogFilter.__init__, EvaluatorLogFilter.filter, WorkerLoggerPlugin.__init__, WorkerLoggerPlugin.setup_logger, WorkerLoggerPlugin.setup, WorkerLoggerPlugin.teardown
* `distrib/probe.py`
  * M: log_worker_location, log_pop
* `distrib/synchronous.py`
  * M: eval_population, eval_pool
* `executable_rep/cgp.py`
  * M: Primitive.arity, Primitive.__call__, FunctionPrimitive.__init__, FunctionPrimitive.arity, FunctionPrimitive.__call__, NAND.arity, NAND.__call__, NotX.arity, NotX.__call__, CGPExecutable.__init__, CGPExecutable.__call__, CGPDecoder.__init__, CGPDecoder.initializer, CGPDecoder.num_genes, CGPDecoder.num_cgp_nodes, CGPDecoder.get_primitive, CGPDecoder.get_input_sources, CGPDecoder.get_output_sources, CGPDecoder._min_bounds, CGPDecoder._max_bounds, CGPDecoder.bounds, CGPDecoder.check_constraints, CGPDecoder.decode, CGPDecoder.prune_graph, CGPWithParametersDecoder.__init__, CGPWithParametersDecoder.decode, CGPWithParametersDecoder.initialize, cgp_mutate, cgp_genome_mutate, create_cgp_vector, cgp_art_primitives
* `executable_rep/executable.py`
  * M: KeyboardExecutable.__init__, KeyboardExecutable.key_release, KeyboardExecutable.__call__, ArgmaxExecutable.__call__, WrapperDecoder.decode
  * –: Executable.__call__, RandomExecutable.__init__, RandomExecutable.__call__, KeyboardExecutable.key_press, ArgmaxExecutable.__init__, ArgmaxExecutable.__getattr__, WrapperDecoder.__init__ (storing arguments; abstract methods)
* `executable_rep/neural_network.py`
  * M: sigmoid, relu, softmax, SimpleNeuralNetworkDecoder.__init__, SimpleNeuralNetworkDecoder.decode, SimpleNeuralNetworkExecutable.num_hidden_layers, SimpleNeuralNetworkExecutable.num_inputs, SimpleNeuralNetworkExecutable.num_outputs, SimpleNeuralNetworkExecutable.graph, SimpleNeuralNetworkExecutable.__call__, GraphPhenotypeProbe.__init__, GraphPhenotypeProbe.__call__
  * –: SimpleNeuralNetworkExecutable.__init__ (storing arguments; drawing)
* `executable_rep/problems.py`
  * M: EnvironmentProblem.__init__, EnvironmentProblem.num_inputs, EnvironmentProblem.num_outputs, EnvironmentProblem._reward_fitness, EnvironmentProblem._survival_fitness, EnvironmentProblem.space_dimensions, EnvironmentProblem.evaluate, TruthTableProblem.__init__, TruthTableProblem.evaluate, TruthTableProblem._enumerate_tt, ImageXYProblem.__init__, ImageXYProblem.generate_image, ImageXYProblem.evaluate
* `executable_rep/rules.py`
  * M: PittRulesDecoder.__init__, PittRulesDecoder.num_inputs, PittRulesDecoder.num_outputs, PittRulesDecoder.num_memory_registers, PittRulesDecoder.num_genes_per_rule, PittRulesDecoder.condition_bounds, PittRulesDecoder.action_bounds, PittRulesDecoder.bounds, PittRulesDecoder.initializer, PittRulesDecoder._split_rule, PittRulesDecoder.mutator, PittRulesDecoder.genome_to_rules, PittRulesDecoder.decode, PittRulesExecutable.__init__, PittRulesExecutable.__priority, PittRulesExecutable._match_set, PittRulesExecutable._fire, PittRulesExecutable.__call__, PlotPittRuleProbe.__init__, PlotPittRuleProbe.__plot_rules, PlotPittRuleProbe.__call__
* `individual.py`
  * M: Individual.__init__, Individual.phenome, Individual.phenome, Individual.create_population, Individual.evaluate_population, Individual.clone, Individual.decode, Individual.evaluate_imp, Individual.evaluate, Individual.__iter__, Individual.__eq__, Individual.__lt__, RobustIndividual.evaluate, WholeEvaluatedIndividual.evaluate_imp
  * –: RobustIndividual.__init__ (setters and forwarding constructors)
* `int_rep/initializers.py`
  * M: create_int_vector
* `int_rep/ops.py`
  * M: mutate_randint, individual_mutate_randint, mutate_binomial, genome_mutate_binomial, _binomial_p_from_std
* `landscape_features/exploratory.py`
  * M: ELAConvexity.__init__, ELAConvexity._compute_deltas, ELAConvexity.convex_p, ELAConvexity.linear_p, ELAConvexity.linear_deviation, ELAConvexity.linear_deviation_abs
  * –: ELAConvexity.pairs, ELAConvexity.combinations, ELAConvexity.deltas, ELAConvexity.results_table (getters that copy a list; formatting a table)
* `multiobjective/asynchronous.py`
  * M: _find_start_layer, _split_dominated, _set_domination, enlu_inds_rank, ENLUInserter.__init__, ENLUInserter.__call__, steady_state_nsga_2
* `multiobjective/nsga2.py`
  * M: generalized_nsga_2
* `multiobjective/ops.py`
  * M: sort_by_dominance, fast_nondominated_sort, rank_ordinal_sort, per_rank_crowding_calc, crowding_distance_calc
* `multiobjective/probe.py`
  * M: ParetoPlotProbe2D.__init__, ParetoPlotProbe2D.__call__
  * –: ParetoPlotProbe2D.reset (drawing)
* `multiobjective/problems.py`
  * M: MultiObjectiveProblem.__init__, MultiObjectiveProblem.worse_than, MultiObjectiveProblem.equivalent, SCHProblem.evaluate, ZDT1Problem.bounds, ZDT1Problem.evaluate, ZDT2Problem.bounds, ZDT2Problem.evaluate, ZDT3Problem.bounds, ZDT3Problem.evaluate, ZDT4Problem.bounds, ZDT4Problem.evaluate, ZDT5Problem.__init__, ZDT5Problem.bounds, ZDT5Problem.evaluate, ZDT6Problem.bounds, ZDT6Problem.evaluate
  * –: SCHProblem.__init__, ZDTBenchmarkProblem.__init__, ZDTBenchmarkProblem.bounds, ZDT1Problem.__init__, ZDT2Problem.__init__, ZDT3Problem.__init__, ZDT4Problem.__init__, ZDT5Problem.phenome_length, ZDT6Problem.__init__ (constructors and bounds are arguments of the modelled evaluations)
* `ops.py`
  * M: iteriter_op, listlist_op, listiter_op, iterlist_op, evaluate, grouped_evaluate, const_evaluate, clone, Crossover.__call__, UniformCrossover.__init__, UniformCrossover.recombine, NAryCrossover._pick_crossover_points, NAryCrossover.recombine, proportional_selection, sus_selection, truncation_selection, elitist_survival, tournament_selection, insertion_selection, naive_cyclic_selection, cyclic_selection, random_selection, pool, migrate, migration_metric, concat_combine, CooperativeEvaluate.__init__, CooperativeEvaluate.__call__, CooperativeEvaluate._choose_collaborators, CooperativeEvaluate._log_trial, compute_expected_probability, compute_population_values, random_bernoulli_vector
  * –: Operator.__call__, Crossover.__init__, Crossover.recombine, NAryCrossover.__init__ (abstract methods, log messages)
* `parsimony.py`
  * M: lexical_parsimony, koza_parsimony
* `probe.py`
  * M: print_probe, print_individual, BestSoFarProbe.__init__, BestSoFarProbe.__call__, BestSoFarIterProbe.__init__, BestSoFarIterProbe.__call__, _maybe_list, FitnessStatsCSVProbe.__init__, FitnessStatsCSVProbe.write_header, FitnessStatsCSVProbe.write_comment, FitnessStatsCSVProbe.__call__, AttributesCSVProbe.__init__, AttributesCSVProbe.dataframe, AttributesCSVProbe.__call__, AttributesCSVProbe.get_row_dict, PopulationMetricsPlotProbe.__init__, PopulationMetricsPlotProbe.__call__, PopulationMetricsPlotProbe.reset, PopulationMetricsPlotProbe._rescale_ax, pairwise_squared_distance_metric, sum_of_variances_metric, num_fixated_metric, FitnessPlotProbe.__init__, CartesianPhenotypePlotProbe.__init__, CartesianPhenotypePlotProbe.__call__, CartesianPhenotypePlotProbe.__rescale_ax, HistPhenotypePlotProbe.__call__, HeatMapPhenotypeProbe.__call__, SumPhenotypePlotProbe.__init__, SumPhenotypePlotProbe.__call__, SumPhenotypePlotProbe.__rescale_ax, best_of_gen
  * –: HistPhenotypePlotProbe.__init__, HeatMapPhenotypeProbe.__init__ (drawing)
* `problem.py`
  * M: Problem.evaluate_multiple, ScalarProblem.__init__, ScalarProblem.worse_than, ScalarProblem.equivalent, FunctionProblem.evaluate, ConstantProblem.evaluate, ExternalProcessProblem.evaluate, ExternalProcessProblem.evaluate_multiple, FitnessOffsetProblem.__init__, FitnessOffsetProblem.evaluate, FitnessOffsetProblem.__str__, AverageFitnessProblem.__init__, AverageFitnessProblem.evaluate, AverageFitnessProblem.evaluate_multiple, AverageFitnessProblem.worse_than, AverageFitnessProblem.equivalent, concat_combine, CooperativeProblem.__init__, CooperativeProblem.evaluate, CooperativeProblem.evaluate_multiple, CooperativeProblem._choose_collaborators, CooperativeProblem._log_trial, CooperativeProblem.worse_than, CooperativeProblem.equivalent, AlternatingProblem.__init__, AlternatingProblem.get_current_problem, AlternatingProblem.evaluate, AlternatingProblem.worse_than, AlternatingProblem.equivalent
  * –: Problem.__init__, Problem.evaluate, Problem.worse_than, Problem.equivalent, FunctionProblem.__init__, ConstantProblem.__init__, ExternalProcessProblem.__init__ (abstract methods and forwarding)
* `real_rep/initializers.py`
  * M: create_real_vector
* `real_rep/ops.py`
  * M: mutate_gaussian, genome_mutate_gaussian, apply_hard_bounds
* `real_rep/problems.py`
  * M: SpheroidProblem.__init__, SpheroidProblem.evaluate, RastriginProblem.__init__, RastriginProblem.evaluate, RastriginProblem.worse_than, RosenbrockProblem.__init__, RosenbrockProblem.evaluate, StepProblem.__init__, StepProblem.evaluate, StepProblem.worse_than, NoisyQuarticProblem.__init__, NoisyQuarticProblem.evaluate, NoisyQuarticProblem.worse_than, ShekelProblem.__init__, ShekelProblem.evaluate, ShekelProblem.worse_than, GriewankProblem.__init__, GriewankProblem.evaluate, AckleyProblem.__init__, AckleyProblem.evaluate, WeierstrassProblem.__init__, WeierstrassProblem.evaluate, LangermannProblem.__init__, LangermannProblem.evaluate, LunacekProblem.__init__, LunacekProblem.evaluate, SchwefelProblem.__init__, SchwefelProblem.evaluate, GaussianProblem.__init__, GaussianProblem.evaluate, CosineFamilyProblem.__init__, CosineFamilyProblem.evaluate, QuadraticFamilyProblem.__init__, QuadraticFamilyProblem.evaluate, QuadraticFamilyProblem.generate, ParabaloidProblem.__init__, ParabaloidProblem.evaluate, TranslatedProblem.__init__, TranslatedProblem.random, TranslatedProblem.evaluate, TranslatedProblem.__str__, ScaledProblem.__init__, ScaledProblem.evaluate, ScaledProblem.__str__, random_orthonormal_matrix, MatrixTransformedProblem.__init__, MatrixTransformedProblem.random_orthonormal, MatrixTransformedProblem.evaluate, MatrixTransformedProblem.__str__, plot_2d_problem, plot_2d_function, plot_2d_contour
  * –: SpheroidProblem.worse_than, RosenbrockProblem.worse_than, QuadraticFamilyProblem.num_basins, QuadraticFamilyProblem.dimensions (`__str__` and drawing)
* `representation.py`
  * M: Representation.create_population
  * –: Representation.__init__, Representation.create_individual (storing arguments, forwarding)
* `segmented_rep/decoders.py`
  * M: SegmentedDecoder.decode
  * –: SegmentedDecoder.__init__ (storing arguments)
* `segmented_rep/initializers.py`
  * M: create_segmented_sequence
* `segmented_rep/ops.py`
  * M: apply_mutation, segmented_mutate, add_segment, remove_segment, copy_segment
* `simple.py`
  * M: ea_solve
* `statistical_helpers.py`
  * M: collect_distribution, _normalize_dicts, stochastic_chisquare, stochastic_equals, equals_uniform, equals_gaussian
* `util.py`
  * M: print_population, inc_generation, inc_births, get_step, print_list, birth_brander
  * –: wrap_curry, is_sequence, is_flat, is_iterable (type inspection)
