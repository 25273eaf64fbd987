{"id": "C01", "title": "Evaluation budget is never exceeded", "statement": "Whatever sequence of API calls is made on a Task, the objective function is called at most max_evals times, and task.evals always equals the number of times the objective was called.", "quantifier": "every objective (also one that is noisy, stateful or raises), every limit, every finite sequence of eval / next_iter / stopping_condition / stopping_condition_iter calls", "why_tests_cant": "the number of client call sequences and objectives is unbounded; a test only shows the counter for the sequences it runs", "anchors": ["src/niapy/task.py: Task.eval, Task.stopping_condition"]}
{"id": "C02", "title": "A stopped task is inert and stays stopped", "statement": "Once stopping_condition() is true it stays true whatever is called afterwards, and from then on eval(x) returns +inf without calling the objective and without changing evals, x_f or the convergence record.", "quantifier": "every reachable task state, every later sequence of API calls, every objective", "why_tests_cant": "needs all histories before and after the stop, including stops caused by each of the three limits", "anchors": ["src/niapy/task.py: Task.eval, Task.stopping_condition, Task.next_iter"]}
{"id": "C03", "title": "task.x_f is the best objective value seen", "statement": "At every moment task.x_f is the smallest (minimization) or largest (maximization) objective value returned by any evaluation so far, ignoring NaN values, and is +inf / -inf when there was none; a NaN value never becomes the best and never hides a later value.", "quantifier": "every objective, both optimization types, every history of calls", "why_tests_cant": "must hold for every sequence of objective values including infinities and NaN", "anchors": ["src/niapy/task.py: Task.eval, OptimizationType"]}
{"id": "C04", "title": "Best-so-far never worsens", "statement": "Between any two moments of a task's life x_f never gets worse, and the list of per-iteration best values (convergence_data('iters')) is monotone and always contains exactly task.iters entries, entry k being x_f when next_iter was called the k-th time.", "quantifier": "every history of API calls, both optimization types", "why_tests_cant": "monotonicity over unbounded histories", "anchors": ["src/niapy/task.py: Task.eval, Task.next_iter, Task.convergence_data"]}
{"id": "C05", "title": "Convergence data over evaluations is the best-so-far curve", "statement": "convergence_data('evals') returns consecutive evaluation numbers from the first improving evaluation to the last improving one, and the value listed for evaluation number e is the best objective value after e evaluations.", "quantifier": "every history of evaluations, every improvement pattern (gaps of any length)", "why_tests_cant": "gap filling depends on the whole history; only finitely many patterns can be tested", "anchors": ["src/niapy/task.py: Task.convergence_data, Task.eval"]}
{"id": "C06", "title": "Maximization mirrors minimization", "statement": "Running any client program on a task that maximizes f gives the same counters, the same eval results, the same stop decisions and the same recorded evaluation numbers as running it on a task that minimizes -f (with the cutoff negated), and the two x_f values are negatives of each other.", "quantifier": "every objective, every cutoff, every client program that only uses the public task API", "why_tests_cant": "relates two executions for every program and objective", "anchors": ["src/niapy/task.py: Task.__init__, Task.eval, Task.stopping_condition, OptimizationType"]}
{"id": "C07", "title": "Cutoff stops evaluation immediately", "statement": "As soon as some evaluation returns a value at least as good as cutoff_value, the stopping condition is true and the objective is never called again; with no cutoff given, the cutoff alone never stops a task before an evaluation returns an infinite best value.", "quantifier": "every objective, every cutoff value, every history", "why_tests_cant": "depends on which evaluation first meets the cutoff in an arbitrary history", "anchors": ["src/niapy/task.py: Task.stopping_condition, Task.eval, Task.__init__"]}
{"id": "C08", "title": "A raising objective consumes budget but records nothing", "statement": "If the objective raises (for instance because the solution has the wrong number of components), the exception propagates out of eval, evals has grown by one, and x_f, the improvement record and the iteration record are unchanged; the task remains usable.", "quantifier": "every task state, every point, every exception", "why_tests_cant": "exceptions can occur at any point of any history", "anchors": ["src/niapy/task.py: Task.eval", "src/niapy/problems/problem.py: Problem.evaluate"]}
{"id": "C09", "title": "Repair functions put every coordinate in bounds", "statement": "For lower <= upper, limit, limit_inverse, wang, rand and reflect each return a vector of the same length none of whose coordinates is below the lower or above the upper bound. (reflect: without rounding; C86 treats double precision.)", "quantifier": "every dimension, every bounds vector with lower <= upper, every input vector (for wang and reflect: over exact arithmetic)", "why_tests_cant": "ranges over all vectors and bounds", "anchors": ["src/niapy/util/repair.py: limit, limit_inverse, wang, rand, reflect"]}
{"id": "C10", "title": "Repair leaves feasible solutions alone and is idempotent", "statement": "If all coordinates are already within bounds the repair functions return the vector unchanged; repairing twice gives the same as repairing once.", "quantifier": "every dimension, bounds and feasible vector; every repair function", "why_tests_cant": "universal over vectors", "anchors": ["src/niapy/util/repair.py: limit, limit_inverse, wang, rand, reflect"]}
{"id": "C11", "title": "is_feasible decides membership in the box", "statement": "is_feasible(x) is true exactly when every coordinate x_i satisfies lower_i <= x_i <= upper_i (so false when some coordinate is NaN), and it is true of every non-NaN vector returned by repair.", "quantifier": "every vector and bounds, including infinities and NaN", "why_tests_cant": "universal over vectors", "anchors": ["src/niapy/task.py: Task.is_feasible, Task.repair"]}
{"id": "C12", "title": "NaN coordinates survive repair", "statement": "No repair function removes a NaN coordinate: a NaN component is returned unchanged, so a repaired vector can still be infeasible exactly because of NaN.", "quantifier": "every vector, every bounds", "why_tests_cant": "the boundary of the feasibility guarantee, for all inputs", "anchors": ["src/niapy/util/repair.py"]}
{"id": "C13", "title": "reflect mirrors the violation at the bound", "statement": "reflect replaces a coordinate that exceeds a bound by d (with d at most the width of the interval) by the point at distance d inside that bound.", "quantifier": "every bound pair and every violating coordinate", "why_tests_cant": "a formula identity over all reals", "anchors": ["src/niapy/util/repair.py: reflect"]}
{"id": "C14", "title": "full_array always yields the requested length", "statement": "full_array(a, n) returns an array of length n: the scalar repeated, the first n entries of a long sequence, or a short non-empty sequence repeated cyclically (entry i is a[i mod len(a)]); an empty sequence (n>0) and unsupported types raise.", "quantifier": "every scalar, every sequence, every n", "why_tests_cant": "all lengths and remainders", "anchors": ["src/niapy/util/array.py: full_array", "src/niapy/problems/problem.py: Problem.__init__"]}
{"id": "C15", "title": "objects_to_array preserves the objects", "statement": "objects_to_array(objs) has one entry per object, in order.", "quantifier": "every list of objects", "why_tests_cant": "all lengths", "anchors": ["src/niapy/util/array.py: objects_to_array"]}
{"id": "C16", "title": "get_best returns the better of population and incumbent", "statement": "For NaN-free fitness values get_best returns a fitness that is <= every population fitness and <= the incumbent fitness and that is one of them, together with the matching solution; on ties the population member with the smallest index wins.", "quantifier": "every population size >= 1, every fitness vector, every incumbent", "why_tests_cant": "all sizes, all tie patterns", "anchors": ["src/niapy/algorithms/algorithm.py: Algorithm.get_best"]}
{"id": "C17", "title": "run() makes at most max_iters iterations and stops", "statement": "Algorithm.run ends after at most max_iters iterations, and if every iteration evaluates at least one solution, after at most max_evals iterations, whatever the objective and the random numbers; it ends with stopping_condition() true.", "quantifier": "every algorithm program, objective, random stream, limits", "why_tests_cant": "termination for all executions", "anchors": ["src/niapy/algorithms/algorithm.py: Algorithm.run", "src/niapy/task.py: Task.stopping_condition"]}
{"id": "C18", "title": "Callbacks fire in the documented order", "statement": "During run every callback, in list order, sees before_run once, then for every iteration before_iteration followed by after_iteration, then after_run once; the number of before_iteration events equals the number of iterations made, and on an exception no further event fires.", "quantifier": "every number of callbacks, every number of iterations, every point at which an exception is raised", "why_tests_cant": "event order over all executions and crash points", "anchors": ["src/niapy/algorithms/algorithm.py: Algorithm.run", "src/niapy/callbacks.py: CallbackList"]}
{"id": "C19", "title": "Exceptions in run are not lost", "statement": "If initialisation, an iteration, a callback or the objective raises, run re-raises in the main thread of the main process; elsewhere it returns (None, None), stores the exception and bad_run() is true. bad_run() is false after a run that raised nothing on a fresh algorithm object.", "quantifier": "every exception at every point of every run", "why_tests_cant": "all crash points", "anchors": ["src/niapy/algorithms/algorithm.py: Algorithm.run, Algorithm.bad_run"]}
{"id": "C20", "title": "Returned fitness has the user's sign", "statement": "run returns the best fitness in the sign of the original objective: for a maximization task the returned value is an objective value, not its negation.", "quantifier": "every algorithm, both optimization types", "why_tests_cant": "all runs", "anchors": ["src/niapy/algorithms/algorithm.py: Algorithm.run"]}
{"id": "C21", "title": "integers() with skip never returns a skipped value", "statement": "integers(low, high, skip=s) returns a value in [low, high) that is not in s, for every random stream on which it returns; if every value of the range is in s it never returns.", "quantifier": "every range, skip set and random stream", "why_tests_cant": "rejection loop over unbounded random streams", "anchors": ["src/niapy/algorithms/algorithm.py: Algorithm.integers"]}
{"id": "C22", "title": "Individual.copy preserves solution and fitness", "statement": "copy() of an individual has equal components and equal fitness.", "quantifier": "every individual", "why_tests_cant": "all values", "anchors": ["src/niapy/algorithms/algorithm.py: Individual.copy, Individual.__init__"]}
{"id": "C23", "title": "Individuals are repaired before evaluation", "statement": "Individual.evaluate only ever passes the repaired components to the objective, and afterwards stores exactly the evaluated components and the fitness eval returned.", "quantifier": "every individual, task, repair function", "why_tests_cant": "all vectors", "anchors": ["src/niapy/algorithms/algorithm.py: Individual.evaluate, Individual.__init__"]}
{"id": "C24", "title": "Default initialisation yields a feasible, evaluated population", "statement": "default_numpy_init and default_individual_init return population_size solutions inside the bounds, with the i-th fitness being the evaluation of the i-th solution (or +inf once the budget is used up), and use exactly min(population_size, remaining budget) evaluations when no cutoff is hit.", "quantifier": "every population size, bounds, random stream and objective", "why_tests_cant": "all sizes and budgets", "anchors": ["src/niapy/algorithms/algorithm.py: default_numpy_init, default_individual_init, Algorithm.init_population"]}
{"id": "C25", "title": "Algorithms only evaluate feasible solutions", "statement": "During a run of any modelled algorithm except the Nelder-Mead method (C67) every solution passed to the objective lies within the bounds (no coordinate below lower or above upper). For algorithms that compute points and evaluate them without repair this is up to rounding; C86 treats double precision.", "quantifier": "every objective, bounds, repair function meeting C09, random stream, floating-point rounding and stop point; separately for each modelled algorithm", "why_tests_cant": "all executions; the candidate arithmetic can produce any value", "anchors": ["src/niapy/algorithms/basic/", "src/niapy/algorithms/modified/", "src/niapy/algorithms/other/"]}
{"id": "C26", "title": "The returned fitness is the best ever evaluated", "statement": "run returns a fitness equal to task.x_f, i.e. no evaluated solution was better than the returned one, also when the budget runs out in the middle of an iteration.", "quantifier": "every NaN-free objective, random stream, budget and stop point; separately for each modelled algorithm except those of C58", "why_tests_cant": "all executions and all points at which the budget can run out", "anchors": ["src/niapy/algorithms/basic/", "src/niapy/algorithms/modified/", "src/niapy/algorithms/other/", "src/niapy/algorithms/algorithm.py: Algorithm.run"]}
{"id": "C27", "title": "The returned solution has the returned fitness", "statement": "The solution returned by run was itself evaluated and its objective value is the returned fitness (unless no evaluation gave a value better than infinity).", "quantifier": "every NaN-free objective, random stream, budget and stop point; separately for each modelled algorithm", "why_tests_cant": "aliasing and stop-point mistakes show only on particular histories", "anchors": ["src/niapy/algorithms/basic/", "src/niapy/algorithms/modified/", "src/niapy/algorithms/other/"]}
{"id": "C28", "title": "Population and fitness stay aligned", "statement": "In the values handed to callbacks after each iteration, fitness[i] is the value an evaluation of population[i] returned, or +inf if the budget had run out.", "quantifier": "every iteration of every run; for each modelled algorithm except comprehensive-learning PSO (C53)", "why_tests_cant": "all executions", "anchors": ["src/niapy/algorithms/basic/", "src/niapy/algorithms/modified/", "src/niapy/algorithms/other/"]}
{"id": "C29", "title": "Incumbent never worsens across iterations", "statement": "The best fitness passed to after_iteration is never worse than the one passed to before_iteration of the same iteration.", "quantifier": "every iteration, any NaN-free objective; per modelled algorithm (for those of C58 see there)", "why_tests_cant": "all executions", "anchors": ["src/niapy/algorithms/basic/", "src/niapy/algorithms/modified/", "src/niapy/algorithms/other/"]}
{"id": "C30", "title": "Evaluations per iteration are fixed", "statement": "For the algorithms that evaluate the whole population once per iteration, a run limited only by max_iters = T uses exactly population_size * (T + 1) evaluations.", "quantifier": "every population size, T, objective and random stream; per modelled algorithm", "why_tests_cant": "all sizes and iteration counts", "anchors": ["src/niapy/algorithms/basic/"]}
{"id": "C31", "title": "Runs with a fixed seed are reproducible", "statement": "With a given seed the result of run and the sequence of evaluated solutions do not depend on any other source of randomness (operating-system entropy), for every deterministic objective.", "quantifier": "every pair of entropy sources; per modelled algorithm and repair function", "why_tests_cant": "non-interference between two executions", "anchors": ["src/niapy/algorithms/basic/", "src/niapy/algorithms/modified/", "src/niapy/algorithms/other/", "src/niapy/util/repair.py: rand"]}
{"id": "C32", "title": "Greedy replacement never worsens an individual", "statement": "In the algorithms with one-to-one survivor selection and a fixed population size (differential evolution with one or several strategies, bat algorithm, cuckoo search, flower pollination, harmony search) the fitness at a position of the population never increases (internal sign) from one iteration to the next.", "quantifier": "every execution; per modelled algorithm", "why_tests_cant": "all executions", "anchors": ["src/niapy/algorithms/basic/de.py: DifferentialEvolution.selection", "src/niapy/algorithms/modified/jde.py", "src/niapy/algorithms/basic/fpa.py", "src/niapy/algorithms/basic/ba.py"]}
{"id": "C33", "title": "Grey wolf leaders are ordered", "statement": "In the grey wolf optimizer the fitness of the alpha is at most that of the beta, which is at most that of the delta, and all three are evaluated solutions.", "quantifier": "every execution", "why_tests_cant": "all executions", "anchors": ["src/niapy/algorithms/basic/gwo.py: GreyWolfOptimizer"]}
{"id": "C34", "title": "Personal bests are the best of each individual's own history", "statement": "In the particle swarm algorithms and in anarchic society optimization no fitness value that particle i has had so far is better than personal_best_fitness[i], and personal_best[i] is a solution that was evaluated with this fitness (for PSO and its centre and mutated variants, and for anarchic society optimization, one that particle i itself has had).", "quantifier": "every execution", "why_tests_cant": "history property", "anchors": ["src/niapy/algorithms/basic/pso.py: ParticleSwarmAlgorithm.run_iteration", "src/niapy/algorithms/other/aso.py:483-503"]}
{"id": "C35", "title": "Population-size reduction keeps the best and stays within limits", "statement": "In L-SHADE style algorithms the population never grows, never shrinks below the documented minimum, and reduction never removes the best individual; the external archive never exceeds its capacity.", "quantifier": "every execution and evaluation budget", "why_tests_cant": "all schedules of reductions", "anchors": ["src/niapy/algorithms/modified/shade.py", "src/niapy/algorithms/modified/ilshade.py"]}
{"id": "C36", "title": "Self-adapted control parameters stay in range", "statement": "jDE-style and SHADE-style scale factors and crossover rates stay within their documented intervals throughout a run.", "quantifier": "every random stream and history", "why_tests_cant": "invariant over all histories", "anchors": ["src/niapy/algorithms/modified/jde.py", "src/niapy/algorithms/modified/shade.py"]}
{"id": "C37", "title": "Simulated annealing accepts worse moves with probability exp(-delta/T)", "statement": "For temperature T > 0 a candidate that is worse by delta is accepted only if the drawn number is below exp(-delta/T), so an arbitrarily bad candidate is rejected when T is small.", "quantifier": "every delta, T and draw", "why_tests_cant": "acceptance rule for all real values", "anchors": ["src/niapy/algorithms/other/sa.py: SimulatedAnnealing.run_iteration"]}
{"id": "C38", "title": "Sine cosine algorithm moves its population", "statement": "Starting from a population that contains a solution different from the best one, some choice of random numbers makes one iteration of the sine cosine algorithm move a solution.", "quantifier": "every population, every iteration", "why_tests_cant": "claims about every draw", "anchors": ["src/niapy/algorithms/basic/sca.py: SineCosineAlgorithm.run_iteration"]}
{"id": "C39", "title": "Genetic crossover mixes two different parents", "statement": "In the genetic algorithm's uniform/two-point/multi-point crossover, for population size >= 2 the second parent is always a different individual than the first.", "quantifier": "every population, index and random stream", "why_tests_cant": "all draws", "anchors": ["src/niapy/algorithms/basic/ga.py: uniform_crossover, two_point_crossover, multi_point_crossover"]}
{"id": "C40", "title": "Binary decoding of CLONALG stays within bounds and is monotone", "statement": "Decoding a bit string to a coordinate always gives a value between the bounds; the all-zero string gives the lower bound and the all-one string the upper bound. (Without rounding; C86 treats double precision.)", "quantifier": "every bit string length and bounds", "why_tests_cant": "all 2^n strings for all n", "anchors": ["src/niapy/algorithms/basic/clonalg.py"]}
{"id": "C41", "title": "Sum-of-squares style benchmarks have the documented minimum", "statement": "Sphere, Sphere2, Sphere3, SumSquares, ChungReynolds, SchumerSteiglitz, BentCigar, Ridge, Zakharov, Schwefel221, Schwefel222, Step, Step2, Step3, Elliptic, Powell, Rosenbrock, Qing, Quintic, Csendes: the value at the documented minimiser is 0 and no point of any dimension has a smaller value.", "quantifier": "every dimension and every real vector", "why_tests_cant": "global optimality over a continuum in every dimension", "anchors": ["src/niapy/problems/"]}
{"id": "C42", "title": "Trigonometric benchmarks have the documented minimum", "statement": "Ackley, Rastrigin, Griewank, Salomon, Alpine1, Whitley, Weierstrass, Pinter, SchafferN2, ExpandedSchaffer, HGBat, Perm: value 0 at the documented minimiser and never below 0.", "quantifier": "every dimension and every real vector", "why_tests_cant": "global optimality over a continuum", "anchors": ["src/niapy/problems/"]}
{"id": "C43", "title": "Trid, Stepint, StyblinskiTang reach the documented optimum", "statement": "Trid has minimum -D(D+4)(D-1)/6 at x_i = i(D+1-i); Stepint has documented minimum 0 at (-5.12,...); StyblinskiTang is bounded below by -39.1662 D.", "quantifier": "every dimension and every real vector (Stepint: in the box)", "why_tests_cant": "global optimality over a continuum", "anchors": ["src/niapy/problems/trid.py", "src/niapy/problems/stepint.py", "src/niapy/problems/styblinski_tang.py"]}
{"id": "C44", "title": "Discus, DixonPrice, Levy, HappyCat, Katsuura, SchafferN4, CosineMixture, ExpandedGriewankPlusRosenbrock, Alpine2 have the documented optimum", "statement": "Each of these benchmarks attains the documented optimal value at the documented point and no feasible point is better.", "quantifier": "every dimension and every feasible vector", "why_tests_cant": "global optimality over a continuum", "anchors": ["src/niapy/problems/"]}
{"id": "C45", "title": "Problem.evaluate rejects wrong dimensions", "statement": "evaluate(x) raises ValueError exactly when x does not have `dimension` components, and otherwise returns the value of the objective.", "quantifier": "every problem and vector", "why_tests_cant": "all lengths", "anchors": ["src/niapy/problems/problem.py: Problem.evaluate, Problem.__call__"]}
{"id": "C46", "title": "Runner produces exactly `runs` results per algorithm/problem pair", "statement": "After Runner.run, results has an entry for every algorithm name and for every problem name of it, each a list with exactly `runs` entries, one per run in order, every task having its own fresh budget of max_evals.", "quantifier": "every list of algorithms and problems, every number of runs", "why_tests_cant": "all list shapes, repeated names", "anchors": ["src/niapy/runner.py: Runner.run, Runner.task_factory"]}
{"id": "C47", "title": "Export type is validated", "statement": "Runner.run with an unsupported export type raises TypeError and returns no results; with a supported one it returns the results.", "quantifier": "every export string", "why_tests_cant": "all strings", "anchors": ["src/niapy/runner.py: Runner.run"]}
{"id": "C48", "title": "Factories resolve every public name", "statement": "get_problem accepts every benchmark class name exported by niapy.problems in any letter case, get_algorithm accepts every algorithm class name exported by niapy.algorithms, and anything else raises KeyError.", "quantifier": "every string", "why_tests_cant": "all strings", "anchors": ["src/niapy/util/factory.py: get_problem, get_algorithm"]}
{"id": "C49", "title": "Glowworms move towards a neighbour chosen by luciferin", "statement": "In glowworm swarm optimization a glowworm with neighbours (glowworms in range with more luciferin) moves towards one of them, chosen with probability proportional to the luciferin difference.", "quantifier": "every population, luciferin vector and random number", "why_tests_cant": "The choice is a cumulative sum over a random number; a test with a fixed seed sees a plausible index, only the quantification over all random numbers shows which neighbours can never be chosen.", "anchors": ["src/niapy/algorithms/basic/gso.py:move_select"]}
{"id": "C50", "title": "Differential evolution strategies use different parents and always mutate something", "statement": "If the population has more individuals than the strategy needs parents, the parents are pairwise different and none of them is the target individual; every coordinate of the trial vector is that of the mutant or that of the target, and at least one coordinate comes from the mutant (all of them for cr >= 1, exactly the forced one for cr <= 0). In SHADE, L-SHADE and ILSHADE the two parents of the difference are different from the target and from each other, the pbest parent is among the first p_num (at least 2) of the population sorted by fitness, and every member of the next population is an old member or such a trial vector, repaired.", "quantifier": "every population, target index, parameter values and random stream; each of the six strategies; every archive and every iteration of SHADE", "why_tests_cant": "a test sees only the index draws of some seeds", "anchors": ["src/niapy/algorithms/basic/de.py: cross_rand1, cross_best1, cross_rand2, cross_best2, cross_curr2rand1, cross_curr2best1", "src/niapy/algorithms/modified/shade.py:43-93", "src/niapy/algorithms/modified/shade.py:391-460"]}
{"id": "C51", "title": "Halving the population keeps its best individual", "statement": "When DynNpDifferentialEvolution reduces its population, an individual at least as good as every dropped one remains.", "quantifier": "every population of more than three individuals", "why_tests_cant": "all populations, in particular of odd size", "anchors": ["src/niapy/algorithms/basic/de.py: DynNpDifferentialEvolution.post_selection"]}
{"id": "C52", "title": "Aging differential evolution does not raise on finite objectives", "statement": "A run of AgingNpDifferentialEvolution with default parameters and an objective with finite values does not raise an exception.", "quantifier": "every objective with finite values", "why_tests_cant": "depends on the fitness values reached during a run", "anchors": ["src/niapy/algorithms/basic/de.py: proportional, AgingNpDifferentialEvolution.aging"]}
{"id": "C53", "title": "Comprehensive-learning PSO keeps fitness and population aligned", "statement": "In the values handed to callbacks by ComprehensiveLearningParticleSwarmOptimizer, fitness[i] is the value an evaluation of population[i] returned.", "quantifier": "every iteration of every run", "why_tests_cant": "all executions; the failing ones need a particle to leave the box", "anchors": ["src/niapy/algorithms/basic/pso.py: ComprehensiveLearningParticleSwarmOptimizer.run_iteration"]}
{"id": "C54", "title": "Runner works with its default algorithms", "statement": "A Runner constructed without the argument `algorithms` runs the artificial bee colony algorithm on the given problems. (False of the code: the default is a string and is iterated character by character; get_algorithm(\"A\") raises KeyError.)", "quantifier": "every list of problems and every number of runs", "why_tests_cant": "no test constructs a Runner without algorithms; the failure is for every list of problems", "anchors": ["src/niapy/runner.py: Runner.__init__, Runner.run"]}
{"id": "C55", "title": "SHADE completes whatever values the objective takes", "statement": "A run of SHADE with a finite budget ends with a solution for every objective function, also one that returns +inf at some points (a usual way to mark invalid points). (False of the code: improving an individual of infinite fitness makes the weights NaN, the memory of scale factors becomes NaN, and the recursive rejection loop in cauchy never ends: RecursionError.)", "quantifier": "every objective", "why_tests_cant": "needs an objective with infinite values in the initial population and the right memory slot to be drawn", "anchors": ["src/niapy/algorithms/modified/shade.py: SuccessHistoryAdaptiveDifferentialEvolution.cauchy, SuccessHistoryAdaptiveDifferentialEvolution.selection"]}
{"id": "C56", "title": "Random search returns a solution with its own fitness", "statement": "The solution and fitness returned by RandomSearch.run belong together: the fitness is the objective value of the returned solution. (False of the code: init_population evaluates the first candidate and returns the last one with that fitness. What holds: the returned fitness is the best value obtained and every evaluated point lies in the box.)", "quantifier": "every run", "why_tests_cant": "the mismatch only shows when the first candidate is never improved upon", "anchors": ["src/niapy/algorithms/other/rs.py: RandomSearch.init_population, RandomSearch.run_iteration"]}
{"id": "C57", "title": "Random search starts on every box", "statement": "RandomSearch.init_population returns for every box with lower <= upper. (False of the code: candidates are drawn until they differ from all earlier ones, so in a box consisting of a single point the second candidate is never found, whatever the random numbers.)", "quantifier": "every box, every random stream", "why_tests_cant": "non-termination for all random streams", "anchors": ["src/niapy/algorithms/other/rs.py: RandomSearch.init_population"]}
{"id": "C58", "title": "Algorithms with trial moves return the best solution they evaluated", "statement": "run of Harris hawks optimization, monarch butterfly optimization, cat swarm optimization, the fireworks algorithms, the camel algorithm and the mantis search algorithm returns a fitness equal to task.x_f, also when the budget runs out in the middle of an iteration; at least the incumbent passed to callbacks is never worse than any individual of a population passed to them.", "quantifier": "every NaN-free objective, random stream, budget and stop point", "why_tests_cant": "all executions and all points at which the budget can run out", "anchors": ["src/niapy/algorithms/basic/hho.py: HarrisHawksOptimization.run_iteration", "src/niapy/algorithms/basic/mbo.py: MonarchButterflyOptimization.run_iteration", "src/niapy/algorithms/basic/cso.py", "src/niapy/algorithms/basic/fwa.py", "src/niapy/algorithms/basic/ca.py", "src/niapy/algorithms/basic/mshoa.py: MantisSearchAlgorithm.init_population"]}
{"id": "C59", "title": "Butterfly adjusting works coordinate by coordinate in any dimension", "statement": "MonarchButterflyOptimization runs on every problem with at least one dimension, and its adjusting operator takes coordinate j of the new butterfly from coordinate j of the chosen one.", "quantifier": "every dimension, population, random stream", "why_tests_cant": "all dimensions and random streams", "anchors": ["src/niapy/algorithms/basic/mbo.py: MonarchButterflyOptimization.adjusting_operator"]}
{"id": "C60", "title": "Fireworks explosions and Gaussian sparks move in every dimension", "statement": "In FireworksAlgorithm and EnhancedFireworksAlgorithm an explosion or a Gaussian spark can differ from its firework for every problem with at least one dimension. (False of the code: the number of displaced coordinates is drawn from 0, ..., dimension - 1, so in one dimension every spark equals its firework and no new point is ever evaluated.)", "quantifier": "every one-dimensional box, parameters, random stream, objective", "why_tests_cant": "all executions", "anchors": ["src/niapy/algorithms/basic/fwa.py: FireworksAlgorithm.explosion_spark", "src/niapy/algorithms/basic/fwa.py: FireworksAlgorithm.gaussian_spark", "src/niapy/algorithms/basic/fwa.py: EnhancedFireworksAlgorithm.explosion_spark"]}
{"id": "C61", "title": "The bare-bones fireworks algorithm returns a solution vector", "statement": "The best solution of BareBonesFireworksAlgorithm is a vector with as many entries as the problem has dimensions. (False of the code: as long as no spark improves on the initial firework it is a matrix with one row.)", "quantifier": "every objective, random stream, number of iterations", "why_tests_cant": "depends on whether any spark ever improves", "anchors": ["src/niapy/algorithms/basic/fwa.py: BareBonesFireworksAlgorithm.run_iteration"]}
{"id": "C62", "title": "Self-adapted bats can still move", "statement": "In SelfAdaptiveBatAlgorithm and HybridSelfAdaptiveBatAlgorithm a bat can be replaced by a better candidate also after its loudness has been adapted. (False of the code: the acceptance threshold (min_loudness - loudness) / starting_loudness is not positive then, so the bat stays where it is for the rest of the run.)", "quantifier": "every execution, every local search, all parameters with min_loudness <= max_loudness and starting_loudness > 0", "why_tests_cant": "all random streams and all later iterations", "anchors": ["src/niapy/algorithms/modified/saba.py: SelfAdaptiveBatAlgorithm.run_iteration", "src/niapy/algorithms/modified/saba.py: SelfAdaptiveBatAlgorithm.self_adaptation", "src/niapy/algorithms/modified/hsaba.py: HybridSelfAdaptiveBatAlgorithm"]}
{"id": "C63", "title": "The hybrid bat algorithm works with every differential evolution strategy", "statement": "HybridBatAlgorithm runs with each of the strategies exported by niapy.algorithms.basic.de. (False of the code: local_search passes the best solution as a sixth positional argument, which cross_rand1, cross_rand2 and cross_curr2rand1 do not take, so it raises TypeError.)", "quantifier": "every strategy, population, random stream", "why_tests_cant": "the exception occurs only in iterations whose random number selects local search", "anchors": ["src/niapy/algorithms/modified/hba.py: HybridBatAlgorithm.local_search", "src/niapy/algorithms/basic/de.py: cross_rand1"]}
{"id": "C64", "title": "Simulated annealing cools down and its temperature never becomes negative", "statement": "During a run of SimulatedAnnealing the temperature never rises and never becomes negative. (False of cool_delta, the default: after n iterations the temperature is starting_temperature - n * delta_temperature, without a lower limit. True of cool_linear in a run limited by max_evals.)", "quantifier": "every starting temperature and step, number of iterations, objective, random stream", "why_tests_cant": "the default temperature becomes negative only after 2500 iterations; nothing observable fails when it does", "anchors": ["src/niapy/algorithms/other/sa.py: cool_delta", "src/niapy/algorithms/other/sa.py: cool_linear", "src/niapy/algorithms/other/sa.py: SimulatedAnnealing.run_iteration"]}
{"id": "C65", "title": "The Nelder-Mead method expands the simplex when reflection finds a new best point", "statement": "NelderMeadMethod tries an expanded point (coefficient gamma) whenever the reflected point is better than all points of the simplex. (False of the code: the first condition of method already accepts such a reflected point, so the expansion step is never reached and gamma has no effect on any run.)", "quantifier": "every simplex size, objective without NaN, coefficients, random stream", "why_tests_cant": "runs look plausible without expansion; only a comparison of all runs with different gamma shows that it is ignored", "anchors": ["src/niapy/algorithms/other/nmm.py: NelderMeadMethod.method"]}
{"id": "C66", "title": "The Nelder-Mead method runs on one-dimensional problems with its default population size", "statement": "NelderMeadMethod with the default population size can be run on problems of every dimension. (False of the code: population_size defaults to the dimension; with one dimension there is one point, the centroid of no points is 0/0 and every iteration raises IndexError or ValueError.)", "quantifier": "every deterministic objective, coefficients, random stream", "why_tests_cant": "tests use at least two dimensions", "anchors": ["src/niapy/algorithms/other/nmm.py: NelderMeadMethod.init_pop", "src/niapy/algorithms/other/nmm.py: NelderMeadMethod.method"]}
{"id": "C67", "title": "The Nelder-Mead method only evaluates feasible solutions", "statement": "During a run of NelderMeadMethod every solution passed to the objective lies within the bounds. (False of the code: reflected, expanded, contracted and shrunken points are evaluated without task.repair.)", "quantifier": "every objective, bounds, repair function, random stream", "why_tests_cant": "a run on a smooth function with the optimum inside rarely leaves the box", "anchors": ["src/niapy/algorithms/other/nmm.py: NelderMeadMethod.method"]}
{"id": "C68", "title": "SHADE memories keep their size and are written in turn", "statement": "In every execution of SuccessHistoryAdaptiveDifferentialEvolution, LpsrSuccessHistoryAdaptiveDifferentialEvolution and ImprovedLpsrSuccessHistoryAdaptiveDifferentialEvolution, the arrays hist_cr and hist_f have hist_mem_size elements at the head of every iteration and k_idx is the index of one of them; one iteration changes at most the element with index k_idx, and if it does, k_idx becomes (k_idx + 1) mod hist_mem_size.", "quantifier": "all hist_mem_size > 0, all parameters, objectives, draws, repair functions and numbers of iterations", "why_tests_cant": "whether the index ever runs over the end of the memory depends on the number of successful iterations, which tests fix to a few", "anchors": ["niapy/algorithms/modified/shade.py", "niapy/algorithms/modified/ilshade.py"]}
{"id": "C69", "title": "Loudness in the adaptive bat algorithm", "statement": "In every iteration of AdaptiveBatAlgorithm that replaces the best solution, the loudness of at least one bat is multiplied with alpha, or put back to starting_loudness if the product is not above 1e-13; every other loudness is unchanged. Hence (without rounding, alpha <= 1 and starting_loudness > 1e-13) every loudness is above 1e-13 and at most starting_loudness in all iterations.", "quantifier": "all populations, parameters, objectives, draws and numbers of iterations", "why_tests_cant": "the reset happens only after hundreds of improvements; the invariant concerns unboundedly long runs", "anchors": ["niapy/algorithms/modified/saba.py"]}
{"id": "C70", "title": "Anarchic society optimization runs on one-dimensional problems and with one individual", "statement": "AnarchicSocietyOptimization with valid coefficients returns a solution for every problem with at least one dimension and every population size of at least one.", "quantifier": "for all problems, objective functions, populations and random streams", "why_tests_cant": "Tests use 10 and 40 dimensions and dozens of individuals; whether a segment of two different indices can always be chosen depends on the dimension and on policy parameters computed at run time.", "anchors": ["src/niapy/algorithms/other/aso.py:36-222", "src/niapy/algorithms/other/aso.py:458-481", "src/niapy/algorithms/other/aso.py:505-590"]}
{"id": "C71", "title": "Runs do not raise", "statement": "With valid parameters, finite bounds (lower <= upper), an objective function that always returns a number and callbacks that do not raise, run() of the library's algorithms with max_iters or max_evals set returns a solution: no exception comes from the algorithm itself (empty choices, index errors, negative scales, an empty population).", "quantifier": "for all problems, dimensions, population sizes, parameters in the stated ranges, random streams and numbers of iterations or evaluations", "why_tests_cant": "Exceptions depend on rare random choices, on sizes at the boundary, and on populations that shrink in late iterations; tests run a few seeds with default sizes.", "anchors": ["src/niapy/algorithms/algorithm.py: Algorithm.run", "src/niapy/algorithms/basic: init_population and run_iteration of all classes", "src/niapy/algorithms/modified", "src/niapy/algorithms/other"]}
{"id": "C72", "title": "normalize_space of the mantis search algorithm changes only the internal representation", "statement": "With MantisSearchAlgorithm(normalize_space=True), as without it, run returns a solution of the problem that was evaluated, with its fitness, and only solutions within the bounds are evaluated; converting to normalised coordinates and back gives the same solution.", "quantifier": "every problem, objective, population size, random stream and number of iterations; both values of use_reflection", "why_tests_cant": "Whether the initial best solution survives, and whether a candidate leaves the unit box, depends on the objective and the random stream.", "anchors": ["src/niapy/algorithms/basic/mshoa.py:168-194", "src/niapy/algorithms/basic/mshoa.py:273-304", "src/niapy/algorithms/basic/mshoa.py:337-352", "src/niapy/algorithms/basic/mshoa.py:415-440"]}
{"id": "C73", "title": "Strategies of the mantis search algorithm", "statement": "In every iteration each mantis has one of the types 1, 2, 3 and moves by the strategy of its type: foraging relative to a different mantis (if there are two or more) with a factor in [-1, 1], attack with an angle in [pi, 2 pi], defense by adding or subtracting the fraction k_value of the best solution. Reflection at the bounds ends within them and leaves solutions within them unchanged.", "quantifier": "all populations, parameters, objectives, random streams, numbers of iterations, and points however far out of bounds", "why_tests_cant": "Invariant of all iterations; the case that the index drawn is the mantis itself, wrapping around at the last one, is rare.", "anchors": ["src/niapy/algorithms/basic/mshoa.py:126-166", "src/niapy/algorithms/basic/mshoa.py:196-229", "src/niapy/algorithms/basic/mshoa.py:355-412", "src/niapy/algorithms/basic/mshoa.py:454-490"]}
{"id": "C74", "title": "Multiple trajectory search returns the fitness of the solution it returns", "statement": "For an objective without NaN values and a repair function that leads into the bounds and does not change coordinates within them (as all repair functions of the library), the pair returned by MultipleTrajectorySearch and MultipleTrajectorySearchV1 is an evaluated solution with its value, and the value is the best one seen, although the local searches move solutions in place between evaluations. With the searches mts_ls1, mts_ls2, mts_ls3v1 callbacks see the whole population with its fitness values. If the objective may return NaN, the fitness returned can belong to another solution.", "quantifier": "for all dimensions, bounds, population sizes, parameters, lists of local searches, objectives, random draws and stopping conditions", "why_tests_cant": "The local searches restore a solution from saved copies along several branches (bonus, improvement, undo); the case in which a restored solution no longer matches its fitness depends on the sequence of objective values and cannot be enumerated by tests.", "anchors": ["src/niapy/algorithms/other/mts.py:19-330", "src/niapy/algorithms/other/mts.py:480-590"]}
{"id": "C75", "title": "Multiple trajectory search enables the best solutions", "statement": "After an iteration, exactly the num_enabled solutions with the best grades (the documented \"number of best solutions for testing\") are enabled for the next iteration. False of the code: argsort of the grades in ascending order enables the solutions with the lowest grades, although a grade is a sum of bonuses for improvements. True: exactly min(num_enabled, population_size) solutions are enabled and none of the others has a lower grade.", "quantifier": "for all dimensions, bounds, population sizes, parameters, objectives, random draws and iterations", "why_tests_cant": "Runs succeed and improve whichever solutions are enabled; a test has no observable difference to assert without knowing the grades of all solutions in all iterations.", "anchors": ["src/niapy/algorithms/other/mts.py:335-350", "src/niapy/algorithms/other/mts.py:540-575"]}
{"id": "C76", "title": "DE-MTS returns the fitness of the solution it returns", "statement": "The pair returned by DifferentialEvolutionMTS (and its multi-strategy, shrinking and v1 variants) is an evaluated solution with its value. False of the code with the default local searches, even without NaN values: mts_ls3 leaves a solution in a state that does not belong to its fitness, and here the solution is then put back into the population of differential evolution, from which the best is taken. True with the searches mts_ls1, mts_ls2, mts_ls3v1; and in all cases the value returned is the best one seen, evaluated solutions lie within the bounds, runs end, are reproducible, and use the stated number of evaluations.", "quantifier": "for all dimensions, bounds, population sizes, parameters, objectives, random draws and stopping conditions", "why_tests_cant": "A run returns a plausible solution and a plausible fitness; that they do not belong together only shows in the branch of mts_ls3 that does not accept its last move.", "anchors": ["src/niapy/algorithms/modified/hde.py:55-136", "src/niapy/algorithms/modified/hde.py:191-565", "src/niapy/algorithms/other/mts.py:138-236"]}
{"id": "C77", "title": "The bonuses of DE-MTS have no effect", "statement": "Runs of DifferentialEvolutionMTS and its variants that differ only in bonus1 and bonus2 are identical: same result, same evaluations in the same order, same values shown to callbacks, same exception if any. (The parameters are documented as bonuses for improving the best solution and for improving a solution; the grades computed from them are stored under another name than the one read when individuals are enabled.)", "quantifier": "for all dimensions, bounds, population sizes, parameters, local searches, strategies, objectives, random draws, stopping conditions and pairs of bonuses", "why_tests_cant": "Equality of all runs for all values of two real parameters; a test can only compare a few runs.", "anchors": ["src/niapy/algorithms/modified/hde.py:34-52", "src/niapy/algorithms/modified/hde.py:128-136", "src/niapy/algorithms/other/mts.py:19-330", "src/niapy/algorithms/other/mts.py:450-480"]}
{"id": "C78", "title": "Dynamic fireworks algorithms return a solution together with its own objective value", "statement": "DynamicFireworksAlgorithm and DynamicFireworksAlgorithmGauss keep the core firework as a view of row 0 of the population, which the next selection overwrites. Nevertheless, if the objective is a function of the solution and never NaN, run returns (x, f) with f the objective value of x, or an infinite f; for an objective whose values vary between calls the returned pair may never have occurred.", "quantifier": "for all boxes, population sizes, parameters, amplification and reduction factors, deterministic NaN-free objectives, repair functions, random sequences, stopping conditions and callbacks", "why_tests_cant": "The aliasing is invisible unless a selection replaces row 0 by a solution that is not the incumbent; that this never happens for deterministic objectives is an invariant of all iterations, and its failure for noisy objectives depends on particular draws", "anchors": ["src/niapy/algorithms/basic/fwa.py:702-729", "src/niapy/algorithms/basic/fwa.py:753-826", "src/niapy/algorithms/basic/fwa.py:873-927"]}
{"id": "C79", "title": "CoralReefsOptimization cannot run for more than k iterations", "statement": "After every k-th iteration CoralReefsOptimization calls depredation, which deletes from the flattened population; the next iteration then raises. So a run returns a result only if the task stops after at most k iterations (25 by default), whatever the stopping condition.", "quantifier": "for all boxes, population sizes, parameters, objectives, repair functions, random sequences, stopping conditions and callbacks", "why_tests_cant": "The unit tests run fewer iterations than k; that no choice of parameters, objective or stopping condition gets past iteration k is a statement about all runs", "anchors": ["src/niapy/algorithms/basic/cro.py:262-276", "src/niapy/algorithms/basic/cro.py:318-367"]}
{"id": "C80", "title": "LionOptimizationAlgorithm keeps its population size, prides and sex ratios", "statement": "In every iteration of LionOptimizationAlgorithm lions mate, males are driven out, females migrate and the surplus of nomads dies. If there is at least one nomad and every pride has at least one female at first, then at the head of every iteration the population has exactly population_size different lions, and every pride and the nomads have as many females and as many males as at the start; pride_size and gender_distribution agree with the population. With nomad_ratio such that there are no nomads this is false: the population is duplicated. At the head of every iteration no lion of the population has a personal best below the fitness recorded as its previous best.", "quantifier": "for all boxes, population sizes, numbers of prides, ratios and rates satisfying the conditions, objectives, repair functions, random sequences, stopping conditions, callbacks and numbers of iterations", "why_tests_cant": "The bookkeeping spans five phases with counters, slices and copies that have to agree for all numbers of births, exiles and migrants; a test sees a few populations only", "anchors": ["src/niapy/algorithms/basic/loa.py:614-688", "src/niapy/algorithms/basic/loa.py:690-773", "src/niapy/algorithms/basic/loa.py:775-974", "src/niapy/algorithms/basic/loa.py:976-1061"]}
{"id": "C81", "title": "Movement policies of AnarchicSocietyOptimization", "statement": "The movement to the personal best takes each coordinate from the individual or from its personal best, that to others from the individual or from the best solution (index below 0.5) or another individual, and the movement by noise adds scaled normal noise to some coordinates. Depending on the index, a segment between two cuts is changed, which is never empty and never contains the last coordinate, or each coordinate with probability crossover_rate: all of them for crossover_rate = 1 and none for crossover_rate = 0.", "quantifier": "for all dimensions, individuals, indices, crossover rates, factors and random sequences", "why_tests_cant": "The policy depends on random cuts and masks; that the last coordinate is never part of a segment is a statement about all draws", "anchors": ["src/niapy/algorithms/other/aso.py:36-117"]}
{"id": "C82", "title": "Schwefel and ModifiedSchwefel have the documented optimum", "statement": "On the documented box no value of Schwefel is below 0 by more than 0.002 per component and the value at (420.9687, ..., 420.9687) is within 0.002 per component of 0; ModifiedSchwefel has the documented minimum 0 at (420.968746, ..., 420.968746).", "quantifier": "every dimension and every vector of the box", "why_tests_cant": "global optimality over a continuum in every dimension; the documented constants are decimal approximations", "anchors": ["src/niapy/problems/schwefel.py:68-69", "src/niapy/problems/schwefel.py:263-271"]}
{"id": "C83", "title": "Parameters survive set_parameters(**get_parameters())", "statement": "For every algorithm class, every object constructed with arbitrary parameter values (or defaults): a.set_parameters(**a.get_parameters()) succeeds and changes no attribute.", "quantifier": "all 80 algorithm classes, all values of all constructor keywords", "why_tests_cant": "unit tests check a few values of a few classes; the property is about all values and the inheritance chain of every class", "anchors": ["src/niapy/algorithms/algorithm.py:86-152", "src/niapy/algorithms/basic/", "src/niapy/algorithms/modified/", "src/niapy/algorithms/other/"]}
{"id": "C84", "title": "set_parameters agrees with the constructor", "statement": "For every algorithm class, a.set_parameters(**kw) leaves a with the parameters of a fresh object constructed with **kw, whatever the attributes of a were: for no keyword, any single keyword, and all keywords.", "quantifier": "all 80 algorithm classes, all keyword values, all previous attribute values", "why_tests_cant": "defaults are written twice in every class and through inheritance; tests use explicit values", "anchors": ["src/niapy/algorithms/algorithm.py:86-152", "src/niapy/algorithms/basic/", "src/niapy/algorithms/modified/", "src/niapy/algorithms/other/"]}
{"id": "C85", "title": "get_parameters shows every constructor parameter", "statement": "For every algorithm class and every object constructed with arbitrary values for all its keyword parameters: a.get_parameters() succeeds and contains each of these keywords with the value that was passed.", "quantifier": "all 80 algorithm classes, all values of all constructor keywords", "why_tests_cant": "unit tests compare a few keys of a few classes; the dictionary is assembled along the inheritance chain of every class", "anchors": ["src/niapy/algorithms/algorithm.py:139-152", "src/niapy/algorithms/basic/", "src/niapy/algorithms/modified/", "src/niapy/algorithms/other/"]}
{"id": "C86", "title": "Bounds are respected in double precision", "statement": "With bounds that are finite doubles (magnitude at most 2**1022) and IEEE 754 arithmetic, every solution passed to the objective by an algorithm that samples solutions as lower + range * random and evaluates them without repair (RandomSearch, HillClimbAlgorithm, SimulatedAnnealing, BacterialForagingOptimization) is within the bounds, and so is everything repaired by limit, limit_inverse, rand and wang. (False of CenterParticleSwarmOptimization, OppositionVelocityClampingParticleSwarmOptimization and ClonalSelectionAlgorithm, which evaluate points that rounding puts above the upper bound, and of the repair function reflect.)", "quantifier": "for all dimensions, bounds, parameters, objectives, repair functions leading into the bounds, random sequences, stopping conditions and callbacks", "why_tests_cant": "Whether the last rounding can overshoot a bound depends on the bit patterns of bounds and draws; a search over some 2**53 draws per coordinate and all pairs of bounds is impossible, and the failing cases are rare", "anchors": ["src/niapy/algorithms/other/rs.py:107", "src/niapy/algorithms/other/hc.py:125", "src/niapy/algorithms/other/hc.py:146", "src/niapy/algorithms/other/sa.py:171", "src/niapy/algorithms/basic/bfo.py:292", "src/niapy/algorithms/basic/clonalg.py:123", "src/niapy/util/repair.py:7-97"]}
{"id": "C87", "title": "Command line values are the last ones given or usable defaults", "statement": "get_args_dict returns for every option the value given last on the command line, converted, or the documented default when the option is absent; it refuses a command line exactly when some value is not acceptable; the optimization type is maximization only for the value max; and the algorithm and problem names it returns are accepted by get_algorithm and get_problem.", "quantifier": "every sequence of option occurrences with any strings", "why_tests_cant": "all command lines, repeated options, invalid values", "anchors": ["src/niapy/util/argparser.py: get_argparser, get_args, get_args_dict, _optimization_type", "src/niapy/util/factory.py: get_problem, get_algorithm"]}
{"id": "C88", "title": "Benchmarks evaluate to a finite number in every dimension", "statement": "Evaluating a benchmark problem at any point of its default box, in any dimension it can be constructed with, raises nothing and gives a real number: the array shapes fit, nothing is divided by zero, and no root or power is taken outside its domain; the number is the value of the function the other benchmark properties are about.", "quantifier": "every problem class, dimension at least one, point of the box", "why_tests_cant": "all dimensions and all points; shape errors and undefined values occur for particular dimensions only", "anchors": ["src/niapy/problems/*.py: _evaluate", "src/niapy/problems/problem.py: Problem.evaluate"]}
{"id": "C89", "title": "evaluate computes the formula latex_code returns", "statement": "For every problem class, the value evaluate returns at any point, in any dimension, is the value of the formula that the method latex_code of the class returns.", "quantifier": "every problem class, dimension and point", "why_tests_cant": "equality of two functions on a continuum in every dimension; the formula is text", "anchors": ["src/niapy/problems/*.py: latex_code, _evaluate"]}
{"id": "C90", "title": "An algorithm object can be used for several runs", "statement": "An Algorithm object can be run several times: `bad_run()` tells whether the last run failed, and a run does not depend on the runs before it (apart from the state of the random generator). False twice. The attribute `exception` is never reset, so after one failed run outside the main thread `bad_run()` stays True for every later successful run; it says whether any run so far has returned (None, None), and a run that raises leaves it alone. BacterialForagingOptimization keeps its counters `k` and `j` between runs: a later run reproduces and eliminates bacteria at other iterations than a new object's run, and is the same as one of a new object only if the iterations of all runs so far are a multiple of n_chemotactic * n_reproduction.", "quantifier": "all sequences of runs of one object, all tasks, parameters, callbacks and random numbers", "why_tests_cant": "The effect of earlier runs depends on how many iterations they had and whether they failed; tests run every object once.", "anchors": ["src/niapy/algorithms/algorithm.py:293-332", "src/niapy/algorithms/basic/bfo.py:104-106", "src/niapy/algorithms/basic/bfo.py:267-298"]}
{"id": "C91", "title": "Evolution strategies adapt step sizes and pass them on", "statement": "EvolutionStrategyMpL and EvolutionStrategyML adapt the step sizes (`rho`) of their individuals, and offspring start with the step size of their parent. False: every new individual has step size 1. In ES(mu,lambda), whose next population consists of new individuals, all step sizes of all runs are 1, so k, c_a, c_r and epsilon have no effect. In ES(mu+lambda) only individuals that are kept have other step sizes (their old one, or that times c_r or c_a). In ES(1+1) and ES(mu+1) the step size of the parent is kept, multiplied by c_r or c_a, or set to 1 when it is not above epsilon. Every k-th iteration applies the 1/5 rule: to the number of iterations that improved the parent in ES(1+1) and ES(mu+1), to the number of individuals that newly entered the population in ES(mu+lambda). All step sizes are products of c_r and c_a.", "quantifier": "all runs (tasks, parameters, random numbers, callbacks) and all iterations", "why_tests_cant": "Tests see the returned solution; step sizes are inner state and depend on the whole history.", "anchors": ["src/niapy/algorithms/basic/es.py:25-36", "src/niapy/algorithms/basic/es.py:162-179", "src/niapy/algorithms/basic/es.py:367-381", "src/niapy/algorithms/basic/es.py:436-468", "src/niapy/algorithms/basic/es.py:550-575"]}
{"id": "C92", "title": "Control parameters follow their schedule over the run", "statement": "The parameters that shift an algorithm from exploration to exploitation follow their documented schedule for every budget: they stay within their range, move monotonically from the initial to the final value and reach it in the last iteration. With the limit in terms of which the schedule is written (max_evals for GreyWolfOptimizer and EnhancedFireworksAlgorithm, max_iters otherwise) true of the inertia weight of OppositionVelocityClampingParticleSwarmOptimization, `a` of GreyWolfOptimizer, the energy of HarrisHawksOptimization, the fading of KrillHerd, the gravity of GravitationalSearchAlgorithm, the flames and slope of MothFlameOptimizer, the alpha of FireflyAlgorithm and the least explosion amplitude of EnhancedFireworksAlgorithm (max_evals). False of ComprehensiveLearningParticleSwarmOptimizer (the inertia weight rises from about 0 to w0 (w0 - w1), by default below w1 for the first 8/9 of a run), of HarmonySearchV1 (the bandwidth is never above bw_min) and of FishSchoolSearch (from the second iteration on the steps are no longer scaled to the search space). With only the other limit given, all these schedules stay at their initial value (0 for ComprehensiveLearning); the least amplitude of EnhancedFireworksAlgorithm is NaN then, so that amplitude_init and amplitude_final have no effect on any run.", "quantifier": "all iterations, budgets and parameters; for FishSchoolSearch and FireflyAlgorithm all runs", "why_tests_cant": "Tests run a few iterations with one kind of limit and look at the returned solution, not at inner parameters.", "anchors": ["src/niapy/algorithms/basic/pso.py:538", "src/niapy/algorithms/basic/pso.py:1140", "src/niapy/algorithms/basic/gwo.py:123", "src/niapy/algorithms/basic/hho.py:116", "src/niapy/algorithms/basic/kh.py:281", "src/niapy/algorithms/basic/kh.py:296", "src/niapy/algorithms/basic/gsa.py:106-116", "src/niapy/algorithms/basic/mfo.py:85-86", "src/niapy/algorithms/basic/hs.py:252-262", "src/niapy/algorithms/basic/fss.py:163-187", "src/niapy/algorithms/basic/fa.py:162-175", "src/niapy/algorithms/basic/fwa.py:519-533"]}
{"id": "C93", "title": "Better individuals get the larger share", "statement": "Where an algorithm distributes effort by fitness (sparks and amplitudes of fireworks, onlooker probabilities of the artificial bee colony, weights of cat swarm copies, masses of gravitational search, tournament and roulette selection of the genetic algorithm, mutation rates of clonal selection), an individual that is not worse than another one gets at least its share. (Holds for fireworks, cat swarm, tournaments and masses; false of the bee colony and clonal selection for negative values and of roulette selection.)", "quantifier": "every population size, all finite fitness values, every random stream", "why_tests_cant": "shares depend on all fitness values at once; tests look at positive objectives only", "anchors": ["src/niapy/algorithms/basic/fwa.py: sparks_num, explosion_amplitudes", "src/niapy/algorithms/basic/abc.py: ArtificialBeeColonyAlgorithm.calculate_probabilities", "src/niapy/algorithms/basic/ga.py: tournament_selection, roulette_selection", "src/niapy/algorithms/basic/cso.py: CatSwarmOptimization.seeking_mode", "src/niapy/algorithms/basic/gsa.py: GravitationalSearchAlgorithm.run_iteration", "src/niapy/algorithms/basic/clonalg.py: ClonalSelectionAlgorithm.mutate"]}
{"id": "C94", "title": "Iterations of the artificial bee colony end", "statement": "Every iteration of the artificial bee colony returns. (False of the code: with population_size 2 or 3 the search for a neighbor of the only food source never ends; if all food sources have the value inf, the loop of the onlookers never ends.)", "quantifier": "every objective, dimension, limit and random stream; every number of rounds", "why_tests_cant": "a test that hangs has no verdict; the claim is about every number of rounds of the loop", "anchors": ["src/niapy/algorithms/basic/abc.py: ArtificialBeeColonyAlgorithm.run_iteration"]}
{"id": "C95", "title": "Gravitational search keeps finite velocities and positions", "statement": "An iteration of the gravitational search algorithm from finite positions, velocities and fitness values leads to finite velocities and hands finite points to the repair function. (False of the code if all agents have the same value, for instance on a plateau or with one agent: everything becomes NaN and stays so. True otherwise.)", "quantifier": "every population size, dimension, positions, velocities and random stream", "why_tests_cant": "equal fitness values of all agents do not occur in tests with continuous objectives", "anchors": ["src/niapy/algorithms/basic/gsa.py: GravitationalSearchAlgorithm.run_iteration"]}
{"id": "C96", "title": "Only the order of objective values matters", "statement": "For DE, multi-strategy DE, dynNpDE, jDE and the hybrids of DE with MTS (searches 1, 1v1, 2), PSO and its variants (weighted velocity clamping, mutated, centre, OVCPSO, CLPSO), GWO, hill climbing, random search, MFO, SCA, cuckoo search, flower pollination, fireflies, the monkey king versions, harmony search, HHO, the bat algorithms, bees algorithm, the genetic algorithm with tournament selection, the evolution strategies, Nelder-Mead, monarch butterflies, MSHOA, coral reefs, forest optimization and MTS with searches 1, 1v1, 2: replacing the objective function by a strictly increasing function of it (for instance its cube, or a multiple plus a constant; the cutoff value alike) changes nothing but the reported fitness values. The same points are evaluated in the same order, the same solution is returned (or the same exception raised) after the same numbers of evaluations and iterations, and callbacks see the same populations. It is false of gravitational search, fish school search, multiple trajectory search with mts_ls3, the artificial bee colony, clonal selection and simulated annealing, which compute with the values.", "quantifier": "every algorithm of the list with any parameters, every strictly increasing function, objective, random stream, stopping criterion and callback, minimization and maximization", "why_tests_cant": "needs a comparison of two whole executions for all objectives and all increasing functions", "anchors": ["src/niapy/task.py: Task.eval", "src/niapy/algorithms/algorithm.py: Algorithm.run_task", "src/niapy/algorithms/basic/*.py: run_iteration", "src/niapy/algorithms/modified/*.py: run_iteration"]}
{"id": "C97", "title": "A larger budget continues the run", "statement": "With the same seed, a run with larger limits (`max_evals`, `max_iters`) or a harder cutoff value continues the run with the smaller ones: the calls of the objective function, with what they returned, are the first calls of the longer run, and the improvements in the convergence data are its first improvements; if the shorter run returns or raises before its budget is used up, the longer run is the same run. Hence the best value found with the larger budget is at least as good, and so is the value returned by the algorithms that return the best point evaluated (C26). This holds of every algorithm of the library, provided a limit the algorithm reads itself is not changed: `max_evals` is read by GWO, dynNpDE and its hybrids, EFWA, (I)L-SHADE, SA with linear cooling and random search; `max_iters` by FSS, OVCPSO, CLPSO, HS version 1, MFO, HHO, KH, CA and random search. When such a limit is changed it fails: HHO, MFO, CA, FSS and OVCPSO evaluate other points from the start, and GWO finds a worse value with 8 evaluations than with 6.", "quantifier": "every algorithm with any parameters, every objective, arithmetic, random stream, repair function, callbacks, and every pair of limits; the failures by concrete pairs of runs", "why_tests_cant": "compares two whole executions, for all objectives, seeds and pairs of limits; a test compares one pair of runs", "anchors": ["src/niapy/task.py: Task.stopping_condition", "src/niapy/task.py: Task.eval", "src/niapy/algorithms/algorithm.py: Algorithm.run_task", "src/niapy/algorithms/basic/gwo.py: GreyWolfOptimizer.run_iteration", "src/niapy/algorithms/basic/hho.py: HarrisHawksOptimization.run_iteration"]}
{"id": "C98", "title": "Moving the problem moves the search", "statement": "Replace the variables of a problem by y = s*x + c (one positive factor and one offset per variable), in the objective, the bounds and the repair function. With the same seed, and computed without rounding, the run on the new problem is the run on the old one in the new variables: it evaluates the points that correspond to those of the old run, in the same order and with the same values, makes the same number of evaluations and iterations, has the same convergence data, shows callbacks the corresponding populations, and returns the corresponding solution with the same fitness or raises the same exception. So the result does not depend on the origin or the units of the variables. This holds for every factor and offset of DE (with one or several of the six strategies, with dynamic population size or aging), jDE, CS, FPA, MFO, ABC, Nelder-Mead, GA with mutations that draw new values, random search, MKE version 2 and CLONALG. For offsets only (s = 1) it also holds of hill climbing, SA, FA, HS, the bat algorithms (BA, ABA, SABA, HSABA, HBA, PLBA), PSO, center PSO, CLPSO, the three evolution strategies, GSA, GSO with the Euclidean distance, and the bees algorithm; for factors only (c = 0) of MKE version 1, GWO and SCA. The repair functions limit, limit_inverse, wang and rand go along with the change; reflect does not, even for offsets. GWO, HHO, MKE versions 1 and 3 and the mutations of mutated PSO depend on the origin; hill climbing, ES (1+1), GSA and FA depend on the units.", "quantifier": "every box, positive factors, offsets, objective, limits, callbacks, random stream whose uniform numbers are lo + (hi - lo)*u, and parameters of the algorithms; exact arithmetic on rationals and the IEEE rules for infinities and NaN, arbitrary elementary functions; the failures by concrete pairs of runs", "why_tests_cant": "relates two whole executions on two different problems; tests run standard problems centred at the origin, where a dependence on the origin looks like good performance", "anchors": ["src/niapy/algorithms/basic/de.py: cross_rand1", "src/niapy/algorithms/basic/gwo.py: GreyWolfOptimizer.run_iteration", "src/niapy/algorithms/basic/mke.py: MonkeyKingEvolutionV3.run_iteration", "src/niapy/algorithms/basic/hho.py: HarrisHawksOptimization.run_iteration", "src/niapy/algorithms/basic/pso.py: MutatedParticleSwarmOptimization.run_iteration", "src/niapy/util/repair.py: reflect"]}
{"id": "C99", "title": "A collapsed population stays where it is", "statement": "Once all members of the population (and personal bests, with zero velocities, where there are such) coincide with the best solution p, and the repair function leaves p alone, the rest of a run of DE (one or several of the six strategies, fixed or dynamic population size), jDE, multi-strategy jDE, SHADE, L-SHADE and IL-SHADE (if the entries of the archive in use are at p as well), cuckoo search, flower pollination, MFO, MKE version 2, PSO and center PSO and Nelder-Mead is wasted: whatever the random numbers and however many iterations are left, every further call of the objective function is at p, every population shown to callbacks consists of copies of p, the best value of the task stays what it is (as long as evaluating p again gives nothing better), and p is returned. This holds in exact arithmetic and, for all but center PSO and Nelder-Mead (where the mean of equal points must equal the point), in IEEE double precision. An archive of SHADE that still contains another point is enough to leave p. Other algorithms leave such a population: GWO, the firefly, bat and bee colony algorithms, harmony search, MKE version 1; so does mutated center PSO, but by evaluating NaN, since it divides the zero mean velocity by its largest component.", "quantifier": "every p in the box with finite coordinates, dimension, population size, objective, random stream (with finite L\u00e9vy steps for CS and FPA), limits, number of callbacks, and finite parameters; the failures by concrete runs", "why_tests_cant": "a statement about all continuations of a run, for all seeds and lengths; a test can only observe that a certain run stagnates", "anchors": ["src/niapy/algorithms/basic/de.py: DifferentialEvolution.evolve", "src/niapy/algorithms/modified/jde.py: SelfAdaptiveDifferentialEvolution.evolve", "src/niapy/algorithms/basic/cs.py: CuckooSearch.run_iteration", "src/niapy/algorithms/basic/fpa.py: FlowerPollinationAlgorithm.run_iteration", "src/niapy/algorithms/basic/mfo.py: MothFlameOptimizer.run_iteration", "src/niapy/algorithms/basic/pso.py: ParticleSwarmAlgorithm.run_iteration", "src/niapy/algorithms/other/nmm.py: NelderMeadMethod.run_iteration", "src/niapy/algorithms/modified/shade.py: SuccessHistoryAdaptiveDifferentialEvolution.run_iteration"]}
{"id": "C100", "title": "The objective is a black box", "statement": "Whatever the algorithm (also a user-defined one that talks to the task through eval), a run is determined by the values the objective function returns at the points at which it is called: with the same seed, an objective function that returns the same at these calls gives the same run, with the same points, counts, convergence data, callbacks, result or exception. What happens up to some call does not depend on what later calls return or raise. Therefore no run certifies an optimum: among any max_evals + 1 points of the search space there is at least one at which the objective function may return anything, for instance a far better value, without any change of the run; and for a run of any length there is such a feasible point, unless the search space is a single point.", "quantifier": "every algorithm, objective function (also one that is noisy or raises), random stream, callbacks, limits; every set of more than max_evals points; every search space with lower < upper in some coordinate", "why_tests_cant": "quantifies over all pairs of objective functions that agree on the points visited, and over all runs", "anchors": ["src/niapy/task.py: Task.eval", "src/niapy/algorithms/algorithm.py: Algorithm.run_task"]}
{"id": "C101", "title": "Algorithms that ignore the repair function", "statement": "Random search, CLONALG, the method of Nelder and Mead and the comprehensive learning particle swarm (with a refreshing gap m of at least 1) never use the repair function of the task: two runs that differ only in the repair_function given to Task are identical - same result, same evaluations in the same order, same values shown to callbacks, same exception if any. (For Nelder-Mead this means that solutions outside the bounds are evaluated whichever repair function is chosen, see C67.) For algorithms that call task.repair, e.g. PSO, and for the comprehensive learning swarm with m = 0, this fails.", "quantifier": "every pair of repair functions, dimension, bounds, population size, parameters, objective, random stream, limits, number of callbacks and iterations; the failures by concrete runs", "why_tests_cant": "equality of all pairs of runs for all repair functions; a test compares a few", "anchors": ["src/niapy/algorithms/other/rs.py: RandomSearch", "src/niapy/algorithms/basic/clonalg.py: ClonalSelectionAlgorithm", "src/niapy/algorithms/other/nmm.py: NelderMeadMethod", "src/niapy/algorithms/basic/pso.py:1101-1162", "src/niapy/task.py: Task.repair"]}
{"id": "C102", "title": "The refreshing gap of CLPSO has no effect", "statement": "The comprehensive learning particle swarm counts for every particle how often it failed to improve and is documented to refresh it after m failures; the counters start at 0 and are only ever set to 0. So runs with any two refreshing gaps of at least 1 are identical, and then c1, c2 and w, which are used when refreshing only, have no effect either; nor does the best solution found so far influence which points an iteration evaluates. With m = 0 every particle is refreshed in every iteration, and the run is another one.", "quantifier": "every pair of gaps m, m_prime >= 1, all values of c1, c2, w, all dimensions, bounds, population sizes, velocity limits, objectives, random streams, stopping conditions and callbacks", "why_tests_cant": "equality of runs for all values of four parameters; a test cannot tell a parameter without effect from one with an effect that is rarely visible", "anchors": ["src/niapy/algorithms/basic/pso.py:990-1056", "src/niapy/algorithms/basic/pso.py:1101-1162"]}
{"id": "C103", "title": "The population keeps the size it was asked for", "statement": "Callbacks (before_iteration, after_iteration) and the loop of Algorithm.run always see a population of population_size members, each with its fitness value, for DE, multi-strategy DE, jDE, multi-strategy jDE, DE with multiple trajectory search, SHADE, CLONALG, both evolution strategies (mu), and every other algorithm that is not meant to change it. Bacterial foraging keeps it only if population_size is even: from the first reproduction on it has 2 * (population_size // 2) bacteria. With population_size = 1 none is left, nothing is evaluated any more, and a task with max_evals only is run for ever, unless the target is reached before. Forest optimization and ageing DE change the size by design. The forest has no fixed size but remains bounded if transfer_rate * (1 + local_seeding_changes) < 1; with the default parameters it never has more than 25 trees.", "quantifier": "for all tasks, objectives, random numbers, repair functions, callbacks, parameters and numbers of iterations; the endless run for every fuel", "why_tests_cant": "A test looks at the population of a few runs; an endless run cannot be observed to be endless.", "anchors": ["src/niapy/algorithms/basic/bfo.py:267-283", "src/niapy/algorithms/basic/de.py:353-423", "src/niapy/algorithms/basic/clonalg.py:135-215", "src/niapy/algorithms/basic/es.py:436-575", "src/niapy/algorithms/algorithm.py:215-290"]}
{"id": "C104", "title": "Searches that pay no attention to the objective", "statement": "Two runs of random search with the same seed, limits and repair function evaluate the same points in the same order, whatever the two objectives are (finite values, no target reached): the fitness only decides what is returned. The same is true, which it should not be, of glowworm swarm optimization (all variants, any parameters) and of simulated annealing while the temperature is positive, in particular of every run with linear cooling and of every run with the default cooling whose limit m of iterations or evaluations satisfies m * delta_t <= starting_t. It is not true of particle swarm optimization.", "quantifier": "for all pairs of objectives, optimization types and targets that are not reached, limits, random numbers, repair functions, callbacks that return, bounds, parameters and numbers of iterations", "why_tests_cant": "A test compares two objectives for one seed; that no objective has any influence on the points is a statement about all pairs.", "anchors": ["src/niapy/algorithms/other/rs.py:85-139", "src/niapy/algorithms/basic/gso.py:187-262", "src/niapy/algorithms/other/sa.py:160-215"]}
{"id": "C105", "title": "Fish weights and glowworm ranges stay within their limits", "statement": "In fish school search no fish is lighter than min_w or heavier than w_scale at the head of any iteration but the first; of the first this is true if min_w <= w_scale / 2, and false otherwise (the fish begin with the weight w_scale / 2, e.g. with w_scale = 1 and min_w = 1). In glowworm swarm optimization (all variants) the range of a glowworm is always between 0 and the length of the diagonal of the search space.", "quantifier": "for all tasks, objectives, random numbers, repair functions, parameters with min_w <= w_scale, variants and numbers of iterations", "why_tests_cant": "A test looks at the weights and ranges of a few runs.", "anchors": ["src/niapy/algorithms/basic/fss.py:164-205", "src/niapy/algorithms/basic/gso.py:187-262"]}
{"id": "C106", "title": "Every repair function of the library can be used with every algorithm", "statement": "A Task can be given any of the functions of niapy.util.repair (limit, limit_inverse, wang, rand, reflect). On a solution (an array with one dimension) each repairs coordinate by coordinate, whether it is given a generator or None. False for CuckooSearch: it passes the whole population to task.repair; limit then works row by row, but limit_inverse, wang, rand and reflect index the bounds with a pair of index arrays and raise IndexError, even if nothing is out of bounds. False for jDE, SHADE, L-SHADE and iL-SHADE with rand: they pass the method self.random instead of a generator, and default_rng raises TypeError. In these cases no iteration is ever completed, and run() returns only if the task has stopped after the initialisation.", "quantifier": "all five functions, all bounds and solutions; all populations, problems, random numbers and callbacks", "why_tests_cant": "Tests use the default repair function with every algorithm, and test the repair functions on single vectors.", "anchors": ["src/niapy/algorithms/basic/cs.py:96-106", "src/niapy/algorithms/modified/jde.py:161-178", "src/niapy/algorithms/modified/shade.py:282", "src/niapy/algorithms/modified/ilshade.py:216", "src/niapy/util/repair.py:7-97", "src/niapy/task.py:106-124"]}
{"id": "C107", "title": "The numeric type an objective function returns does not matter", "statement": "An objective function may return any real number type: Python bool, int or float, an integer or a floating point scalar of NumPy. task.eval multiplies the value with 1.0 or -1.0, and the algorithms compare the product. True for Python numbers, NumPy integers and np.float64, and for every call of get_best with arrays. False for np.float32, np.float16 and np.longdouble (which stay what they are when multiplied): get_best with a single number tests isinstance(value, (float, int)) and ignores them. SimulatedAnnealing, HillClimbAlgorithm, RandomSearch, EvolutionStrategy1p1 and EvolutionStrategyMp1 start with a single solution; on a task that has not stopped at the start no run returns a solution, and if the initial solution can be evaluated it ends with AttributeError. HarmonySearch (and V1), GreyWolfOptimizer, GeneticAlgorithm and FishSchoolSearch run, but report the best solution of the initial population whatever they evaluate afterwards.", "quantifier": "all number types listed, all problems, bounds, parameters, sizes, random numbers, callbacks and lengths of runs", "why_tests_cant": "Tests return Python floats or np.float64. That no evaluated solution is ever reported is a statement about all runs.", "anchors": ["src/niapy/algorithms/algorithm.py:223-244", "src/niapy/algorithms/algorithm.py:309-311", "src/niapy/task.py:29-30", "src/niapy/task.py:131-154", "src/niapy/algorithms/other/sa.py:158-204", "src/niapy/algorithms/other/hc.py:112-155", "src/niapy/algorithms/other/rs.py:85-139", "src/niapy/algorithms/basic/es.py:181-230", "src/niapy/algorithms/basic/hs.py:145-171", "src/niapy/algorithms/basic/gwo.py:92-143", "src/niapy/algorithms/basic/ga.py:342-371", "src/niapy/algorithms/basic/fss.py:204-286"]}
{"id": "C108", "title": "Guarantees with an initialization function of the user", "statement": "An algorithm that is given an initialization function (`initialization_function=f`) which generates points within the bounds and evaluates them row by row keeps its guarantees: nothing outside the bounds is evaluated, the solution returned is the best one found, the callbacks see consistent and improving results, runs end and are reproducible. This holds for all algorithms that take their population from such a function (34 that expect arrays, 12 that expect individuals), whatever points within the bounds the function generates and however it draws them. It fails for functions that generate points outside the bounds: what a function that returns arrays generates is evaluated without being repaired, also with the function in examples/custom_init_population.py. SimulatedAnnealing, HillClimb, RandomSearch, ES(1+1), ES(mu+1), FishSchoolSearch and ClonalSelection never call the function, ABC, ES(mu+lambda) and ES(mu,lambda) raise TypeError when given one.", "quantifier": "all covered algorithms, all initialization functions that generate points within the bounds, all tasks, repair functions, callbacks and random numbers, all runs", "why_tests_cant": "Tests try one or two initialization functions with one algorithm; the claim is about every function and every algorithm.", "anchors": ["src/niapy/algorithms/algorithm.py:24-59", "src/niapy/algorithms/algorithm.py:86-108", "src/niapy/algorithms/algorithm.py:246-264", "examples/custom_init_population.py:15-18"]}
{"id": "C109", "title": "Operators supplied by the user", "statement": "Differential evolution and its variants, jDE, the hybrid bat algorithms, the genetic algorithm, simulated annealing, coral reefs optimization and multiple trajectory search accept functions of the user (strategies, ages, selection, crossover, mutation, cooling, brooding, local searches). Whatever these functions compute, a run keeps its guarantees: every evaluated point is within the bounds, the returned fitness is the best value seen and belongs to the returned solution, callbacks see aligned populations and a best fitness that never gets worse, the run ends, and the outcome is determined by the seed; and the result of each function is used. False of the code: coral reefs optimization evaluates what a crossover or brooding function returns without repairing it; the genetic algorithm ignores what its selection and crossover functions return; jDE is not seeded; a local search of multiple trajectory search that does not report the best point it evaluated makes the run lose it.", "quantifier": "all functions that evaluate nothing themselves, all local searches that report what they evaluate, all tasks, parameters, random numbers and callbacks", "why_tests_cant": "a test tries a few functions; the claim is about all of them and all runs", "anchors": ["src/niapy/algorithms/basic/ga.py:258-371", "src/niapy/algorithms/basic/de.py:271-420", "src/niapy/algorithms/basic/cro.py:140-367", "src/niapy/algorithms/other/sa.py:96-204", "src/niapy/algorithms/modified/jde.py:150-180", "src/niapy/algorithms/modified/hba.py:60-125", "src/niapy/algorithms/modified/hsaba.py:70-130", "src/niapy/algorithms/other/mts.py:366-571"]}
{"id": "C110", "title": "The default bounds of a benchmark contain its documented optimum", "statement": "A benchmark constructed without explicit bounds gives a task whose box contains the documented minimiser, for every dimension, so that the documented minimum is the best value that the task can return: Ackley, Alpine1, BentCigar, ChungReynolds, Csendes, DixonPrice, Elliptic, Griewank, HGBat, ModifiedSchwefel, Perm, Pinter, Powell, Qing, Quintic, Rastrigin, Ridge, Rosenbrock, Salomon, SchafferN2, ExpandedSchaffer, Schwefel, SchumerSteiglitz, Schwefel221, Schwefel222, Sphere, Sphere2, Sphere3, Step, Step2, Step3, Stepint, StyblinskiTang, SumSquares, Trid, Weierstrass, Whitley, Zakharov.", "quantifier": "all dimensions, all points of the default box", "why_tests_cant": "Tests evaluate a function at a point in a few small dimensions and never compare that point with the bounds; Qing leaves its box only beyond dimension 250000.", "anchors": ["src/niapy/problems/problem.py:26-37", "src/niapy/problems/qing.py:50", "src/niapy/problems/trid.py:59", "src/niapy/problems/perm.py:59", "src/niapy/problems/schwefel.py:239"]}
{"id": "C111", "title": "Cats, bats and corals move as documented", "statement": "Cat swarm optimization: the velocities of all cats are between -max_velocity and max_velocity in all iterations; a copy of a seeking cat differs from the cat, before repair, in at most int(D * cdc) coordinates, all changed by the share srd in the same direction; a copy better than the best solution goes to a cat of the population. Bat algorithm: at the head of iteration k the loudness is the initial one times alpha to the power k; a bat adds to its velocity its difference to the best solution times a frequency between the minimum and the maximum frequency, and keeps it whether or not it moves. Coral reefs optimization: depredation removes num_depredation fitness values, none below one that it keeps.", "quantifier": "for all tasks, objectives, random numbers, repair functions, parameters, dimensions, population sizes and numbers of iterations; in every arithmetic", "why_tests_cant": "Tests look at results of seeded runs only; the velocities, the loudness and the copies are never compared with the rules.", "anchors": ["src/niapy/algorithms/basic/cso.py:167-237", "src/niapy/algorithms/basic/ba.py:130-206", "src/niapy/algorithms/basic/cro.py:262-276"]}
{"id": "C112", "title": "Rates of 0 and 1", "statement": "Setting a documented rate or probability to 0 switches the operator off, setting it to 1 makes it happen every time: crossover_probability of differential evolution (apart from the one coordinate that always mutates), tao1/tao2 of jDE, tao_1/tao_2 of the self-adaptive bats, prob_elimination of bacterial foraging, crossover_rate of krill herd, mutation_rate of the genetic algorithm (apart from one coordinate), mixture_ratio of cat swarm, population_rate of monkey king evolution, p0 of opposition-based PSO, mutation_factor and mating_factor of lions, visibility of camels, omega of aging DE, pulse_rate and loudness of bats, the switch probability of flower pollination, r_accept and r_pa of harmony search, pa of cuckoo search, crossover_rate and mutation_rate of coral reefs and krill herd, the mutation rate of CLONALG.", "quantifier": "for all environments, generators, populations and parameters at or beyond 0 and 1", "why_tests_cant": "a test sees some draws of one generator; that an operator is never (always) applied is a statement about all draws, and a test that uses rates between 0 and 1 cannot see that a rate works the wrong way round", "anchors": ["src/niapy/algorithms/basic/de.py:50", "src/niapy/algorithms/modified/jde.py:157-158", "src/niapy/algorithms/modified/saba.py:206-211", "src/niapy/algorithms/basic/bfo.py:291", "src/niapy/algorithms/basic/kh.py:322-336", "src/niapy/algorithms/basic/ga.py:155", "src/niapy/algorithms/basic/loa.py:582-672", "src/niapy/algorithms/basic/ca.py:316", "src/niapy/algorithms/basic/cs.py:102", "src/niapy/algorithms/basic/cro.py:31-76", "src/niapy/algorithms/basic/clonalg.py:131", "src/niapy/algorithms/basic/ba.py:197-202", "src/niapy/algorithms/basic/fpa.py:127", "src/niapy/algorithms/basic/hs.py:141", "src/niapy/algorithms/basic/pso.py:531", "src/niapy/algorithms/basic/de.py:793"]}
{"id": "C113", "title": "New solutions stay in the documented neighbourhood", "statement": "In exact arithmetic, before repair: a candidate of the artificial bee colony differs from its food source in one coordinate, by no more than the neighbour does; a bee dances within ngh in one coordinate; a local seed of the forest differs in at most local_seeding_changes coordinates, each by at most a fifth of the absolute upper bound (so that on a box whose upper bounds are 0 local seeding never moves, contrary to what is expected of it), a global seed in at most global_seeding_changes coordinates which stay in the bounds; an explosion of a firework displaces fewer than D coordinates, all by the same amount within the amplitude, a bare-bones firework moves within its amplitude and only to a better value; a fish swims within its step and only to a better place; simulated annealing tries points within delta/2; a note of harmony search is random or within b_range of one of the memory; a grey wolf aims within a times its distance of each leader, and at the middle of the leaders if a is 0; the noise of a firefly is within alpha/2 of the range; the coordinates of migrating butterflies are those of butterflies.", "quantifier": "for all populations, generators, environments and parameters, in exact arithmetic and for finite coordinates", "why_tests_cant": "a test sees some candidates of one generator; the bound concerns all draws", "anchors": ["src/niapy/algorithms/basic/abc.py:149-215", "src/niapy/algorithms/basic/bea.py:136-141", "src/niapy/algorithms/basic/foa.py:129-163", "src/niapy/algorithms/basic/fwa.py:126-160", "src/niapy/algorithms/basic/fwa.py:295-330", "src/niapy/algorithms/basic/fss.py:190-240", "src/niapy/algorithms/other/sa.py:175-205", "src/niapy/algorithms/basic/hs.py:100-145", "src/niapy/algorithms/basic/gwo.py:92-143", "src/niapy/algorithms/basic/fa.py:138-175", "src/niapy/algorithms/basic/mbo.py:133-165"]}
{"id": "C114", "title": "Moves are attracted by what they follow", "statement": "In exact arithmetic, before repair: the velocity of a particle is its weighted old velocity plus attractions of at most c1 and c2 by its personal and the global best (one of at most c by the point learned from, in comprehensive learning; the two shared by one random weight in the unified variant, so that without inertia and with coefficients of at most 1 a particle stays within the box spanned by its position and the two bests); a monkey moves from its personal best by at most fluctuation_coeff of its difference from the best; a moth that is where its own flame is flies into the flame it is assigned; found nests all move by the same random part of the differences of two random arrangements of the nests; local pollination adds a part of the difference of two different flowers; a hawk whose prey is tired stays, finds something better or besieges the prey at no more than the energy times its distance; a school of fish is shifted by one weighted mean of the displacements of fish that gained, contracts to or expands from its barycentre by at most the step; a glowworm moves towards some glowworm by at most s; agents of gravitational search are attracted and never repelled, and the worst attracts no one.", "quantifier": "for all populations, generators, environments and parameters of the documented signs, in exact arithmetic and for finite coordinates", "why_tests_cant": "a test sees some moves of one generator; the sign and size of an attraction concern all draws", "anchors": ["src/niapy/algorithms/basic/pso.py:190-210", "src/niapy/algorithms/basic/pso.py:918-940", "src/niapy/algorithms/basic/pso.py:1083-1099", "src/niapy/algorithms/basic/mke.py:171-220", "src/niapy/algorithms/basic/mfo.py:56-98", "src/niapy/algorithms/basic/cs.py:101-107", "src/niapy/algorithms/basic/fpa.py:104-140", "src/niapy/algorithms/basic/hho.py:96-176", "src/niapy/algorithms/basic/fss.py:237-290", "src/niapy/algorithms/basic/gso.py:215-260", "src/niapy/algorithms/basic/gsa.py:139-173"]}
{"id": "C115", "title": "New individuals are made of what they should be made of", "statement": "Without mutation a mating of lions has exactly two cubs, one of each sex, of the pride; before repair they are beta F + (1 - beta) M and (1 - beta) F + beta M for the mother F and the mean M of at least one different males. Every coordinate of a larva of broadcast spawning is that coordinate of some spawner, and only the first half of the spawners changes (the first one never does). Reproduction of bacteria keeps the healthier half of the cells twice, with their health forgotten. A step of the Nelder-Mead method replaces the worst vertex alone, by centroid + c (centroid - worst) with c one of the coefficients of reflection, expansion and contraction (contraction only if it improves the worst), the centroid being the mean of all other vertices; or it keeps the best vertex and moves each other one to best + sigma (vertex - best); new vertices carry their own objective values. Adjusted butterflies of the second land take coordinates of the best or of butterflies of the second land plus a walk that fades with the iterations. The food of krill is a mean of the herd in which better krill weigh more if all objective values are positive (if they have both signs it may lie outside of the herd).", "quantifier": "for all populations, generators, environments and parameters; means in exact arithmetic and for finite coordinates", "why_tests_cant": "a test sees some offspring of one generator; what offspring can be made of concerns all draws", "anchors": ["src/niapy/algorithms/basic/loa.py:562-612", "src/niapy/algorithms/basic/cro.py:15-32", "src/niapy/algorithms/basic/bfo.py:274-283", "src/niapy/algorithms/other/nmm.py:128-164", "src/niapy/algorithms/basic/mbo.py:159-188", "src/niapy/algorithms/basic/kh.py:310-322", "src/niapy/algorithms/basic/kh.py:338-353"]}
{"id": "C116", "title": "Elitist algorithms keep their best individuals", "statement": "From one iteration to the next the best fitness of the population does not get worse: in the algorithms with one-to-one selection, the evolution strategies with plus selection, clonal selection, the Nelder-Mead method (with at least two vertices), the bare-bones and enhanced fireworks algorithms, SHADE without population reduction and the bees algorithm (with at least one selected site), for each old fitness value there is a new one that is not worse. The two best monarch butterflies of an iteration are members of the next population, with a value the objective gives them. In the forest (lifetime and area limit at least 1) the best tree is always a new one and the next forest has a tree at least as good as what the objective then says about it. The first firework of the other fireworks algorithms is at least as good as what the objective says about the old ones. Corals stay in the reef, with their fitness, until the next depredation. (The genetic algorithm is not elitist; a forest with lifetime 0 loses its best tree.)", "quantifier": "for all runs, objectives, generators, callbacks and parameters (for the forest: objectives without NaN)", "why_tests_cant": "a test sees some iterations of one run; that the best survives concerns every iteration of every run", "anchors": ["src/niapy/algorithms/basic/es.py:198-231", "src/niapy/algorithms/basic/es.py:436-469", "src/niapy/algorithms/basic/clonalg.py:135-221", "src/niapy/algorithms/other/nmm.py:128-190", "src/niapy/algorithms/basic/bea.py:166-218", "src/niapy/algorithms/basic/mbo.py:235-270", "src/niapy/algorithms/basic/foa.py:232-271", "src/niapy/algorithms/modified/shade.py:286-340", "src/niapy/algorithms/basic/ga.py:342-371", "src/niapy/algorithms/basic/fwa.py:126-160", "src/niapy/algorithms/basic/fwa.py:340-374", "src/niapy/algorithms/basic/fwa.py:584-612", "src/niapy/algorithms/basic/fwa.py:753-762", "src/niapy/algorithms/basic/cro.py:278-367"]}
{"id": "C117", "title": "Hill climbing climbs and its iterations end", "statement": "With a limit max_evals every run of hill climbing ends and (for objectives without NaN and exceptions, delta not negative) returns a solution; the inner loop, which never looks at the stopping condition, makes at most max_evals + 1 rounds. With max_iters alone this is not so: even the first iteration may go on forever. Climbing itself is refuted: the fitness of the current solution plays no role and the next one may be worse; what holds is that the next solution is one sampled from the whole box or, if better than that, a neighbour of the current solution (normal noise added, then repaired).", "quantifier": "for all boxes, objectives, generators, repair functions, callbacks and budgets", "why_tests_cant": "a test that ends says nothing about other generators and objectives; that all runs end is no observation of one run", "anchors": ["src/niapy/algorithms/other/hc.py:13-31", "src/niapy/algorithms/other/hc.py:128-155", "src/niapy/task.py:131-153"]}
{"id": "C118", "title": "Truncation selection keeps exactly the best", "statement": "The new population of the (mu+lambda) evolution strategy consists of the mu best of the old population and lambda evaluated offspring; that of the (mu,lambda) strategy of the mu best of the lambda offspring (if there are not fewer survivors than offspring, of all offspring and nobody else); that of clonal selection of the population_size best of the antibodies and num_clones clones of each, then of these and num_rand random antibodies. The selected ones are in ascending order of fitness, NaN last, and nobody who was left out is better. The population of the bees algorithm is always in ascending order and its first bee is reported as the best; its patch size after n iterations is ngh * 0.95^n in exact arithmetic.", "quantifier": "for all populations, objectives (NaN included), generators, unstable sorts and parameters", "why_tests_cant": "a test compares some populations; which individuals survive concerns all of them, also with ties and NaN", "anchors": ["src/niapy/algorithms/basic/es.py:436-468", "src/niapy/algorithms/basic/es.py:513-575", "src/niapy/algorithms/basic/clonalg.py:135-221", "src/niapy/algorithms/basic/bea.py:143-218"]}
{"id": "C119", "title": "Velocities stay within their limits, memories within what succeeded", "statement": "Throughout a run of the particle swarm classes with fixed velocity limits no velocity is beyond min_velocity or max_velocity, provided that the function that repairs velocities respects them and 0 is within them; the default one, reflect, does so for finite limits. For OppositionVelocityClampingParticleSwarmOptimization this is refuted: its first limits are swapped, so that 0 is above the largest and below the smallest velocity, and the later ones are sigma times the extremes of the positions, so that in a coordinate that is positive in the whole search space all velocities become positive. The scale factor that SHADE and L-SHADE store after a generation is the Lehmer mean of the successful ones weighted with their improvements; it is between the smallest and the largest successful scale factor, likewise the crossover rate unless the memory is marked with -1, and a mark stays; ILSHADE stores the middle between that and the previous content.", "quantifier": "for all boxes, objectives, generators, populations, limits, callbacks and numbers of iterations; all lists of successes", "why_tests_cant": "an invariant of all states of all runs; the means are claims about all lists of successes", "anchors": ["src/niapy/algorithms/basic/pso.py:190-258", "src/niapy/algorithms/basic/pso.py:491-492", "src/niapy/algorithms/basic/pso.py:538-547", "src/niapy/algorithms/modified/shade.py:429-451", "src/niapy/algorithms/modified/ilshade.py:349-379"]}
{"id": "C120", "title": "Individuals are containers that compare by value and copy by value", "statement": "ind[i] raises IndexError exactly for i outside -len(ind) ... len(ind)-1 and counts negative indices from the end. ind[i] = v changes that component and nothing else; in particular the fitness remains that of the old solution. Two individuals are equal exactly if components and fitness agree and none is NaN, which is symmetric and transitive; comparing with an array of individuals asks for membership. No program changes the components of an individual except through individuals that hold the same array: a copy can be edited without changing the original and the other way round, and an individual made from a list has an array of its own. One made from an array shares it with the caller: setting components or evaluating (which repairs in place) changes the caller's array.", "quantifier": "for all arrays, indices, lists of individuals and programs (sequences of constructions, copies, assignments and evaluations of any length)", "why_tests_cant": "a statement about all programs that can be written with individuals, and about absence of aliasing", "anchors": ["src/niapy/algorithms/algorithm.py:335-468", "src/niapy/util/repair.py:7-97"]}
{"id": "C121", "title": "Callbacks know the algorithm that calls them", "statement": "A new algorithm calls exactly the callbacks it was given, in order, and their attribute algorithm is the new algorithm. Whatever a program does later, these callbacks remain called in the same order, and callbacks appended to the list come after them; append raises ValueError for anything but a callback. That a callback knows the algorithm that is running is refuted: a callback appended to the list of an algorithm has algorithm None, and if a CallbackList (or a callback) is given to two algorithms its callbacks know the second one while the first is running. What holds is that a callback given to an algorithm at its construction knows this algorithm until another algorithm is given the callback.", "quantifier": "for all programs: sequences of any length that create callback lists and algorithms and append callbacks, with lists shared in any way", "why_tests_cant": "a statement about all programs; sharing of lists between algorithms makes the order of constructions matter", "anchors": ["src/niapy/callbacks.py:8-18", "src/niapy/callbacks.py:58-130", "src/niapy/algorithms/algorithm.py:105-106"]}
{"id": "C122", "title": "A task has the dimension and the bounds that are asked for", "statement": "Task(problem=name, dimension=d, lower=l, upper=u) has dimension d and bounds l and u spread over the dimension, with the default of the benchmark for each of the three that is not given; whenever it can be constructed its bounds have exactly as many components as its dimension says. This is refuted for four benchmarks and proved for all others: SchafferN2 and SchafferN4 silently have dimension 2 whatever is asked for, Trid silently has its own bounds, and Perm raises TypeError if bounds are given. Bounds of Perm are minus and plus the dimension, those of Trid minus and plus its square. Without bounds every name gives a task whose lower bounds are below its upper bounds. Given an instance of Problem, the task has its dimension and bounds and ignores the arguments, with a warning exactly if there is one; any other object raises TypeError, an unknown name KeyError. Bounds are not checked: lower bounds above the upper ones are accepted.", "quantifier": "for all names of problems, dimensions, bounds (scalar, iterable or neither, given or not) and problem instances", "why_tests_cant": "unit tests construct a few problems with particular arguments; which keyword is dropped on the way through Task, factory, constructor and base class depends on the class and on what is given", "anchors": ["src/niapy/task.py:78-93", "src/niapy/util/factory.py:6-20", "src/niapy/problems/problem.py:26-37", "src/niapy/problems/schaffer.py:45-57", "src/niapy/problems/schaffer.py:107-119", "src/niapy/problems/perm.py:48-59", "src/niapy/problems/trid.py:47-59", "src/niapy/util/array.py:6-37"]}
{"id": "C123", "title": "Nobody lives longer than the lifetime, no source is tried more often than the limit", "statement": "After every iteration of the forest optimization algorithm no tree is older than lifetime. After every iteration of aging differential evolution no individual is older than the largest lifetime the function for lifetimes can return, which is max_lifetime for proportional (the default), linear and bilinear. That a food source of the artificial bee colony is given up after limit trials in vain is refuted: onlookers look at the counter of the last source instead of the one that was tried, so that other sources can be tried more often. What holds with a positive limit is that the counters stay below limit + food_number, a bound that is attained, and that of the last source below limit.", "quantifier": "for all runs of any length, all objectives, generators, repair functions, dimensions, population sizes and parameters", "why_tests_cant": "a statement about all reachable states; the counter of the wrong source is looked at only in executions where onlookers fail", "anchors": ["src/niapy/algorithms/basic/foa.py:165-271", "src/niapy/algorithms/basic/de.py:535-588", "src/niapy/algorithms/basic/de.py:736-836", "src/niapy/algorithms/basic/abc.py:149-218"]}
