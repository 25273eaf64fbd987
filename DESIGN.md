# Formal model of NiaPy – design

The source tree is `/repo` (NiaOrg/NiaPy, pinned commit); paths below are relative to `/repo/src/niapy`.
The model is Lean 4 (`lean/Verif`), it follows the Python functions branch by branch; every definition cites the
file and the lines it models. Nothing in `/repo` is executed.

## 1. How the code is modelled

* **Numbers.** `Fl` = NaN, -inf, +inf, or a finite rational. Every IEEE double is one of these
  (signed zeros identified), and comparison, negation, `min`/`max`, `clip`, `argmin` are *exact* on doubles, so
  everything in NiaPy that only compares and negates (Task, get_best, selection steps, `limit`) is modelled
  without idealisation, NaN included. `+ - * /`, `exp`, `sin`, ... used to make candidates round; they are
  *uninterpreted*: a class `Arith` of arbitrary functions `Fl → Fl → Fl`. A theorem stated for every `Arith` holds
  for IEEE arithmetic with any rounding. Where a property needs arithmetic laws the law is an explicit hypothesis,
  or the statement is about exact (rational/real) arithmetic and says so.
* **Task** (`task.py`). A static configuration (objective, type, limits, cutoff) and a state
  (iters, evals, x_f, n_evals, fitness_evals, fitness_iters). The objective is an arbitrary function of the call
  number and the point with values `Except PyErr Fl` – it may be noisy, stateful, raise, return NaN.
* **Python exceptions** are values of `PyErr`; state changes made before the exception are kept.
* **Client programs / algorithms.** A free monad `Prog` over the API operations (eval, repair, next_iter, reading
  the task, drawing random numbers, firing callbacks). "For every client program" is induction on `Prog`.
  `uniform(lo, hi)` raises ValueError if `lo > hi` and OverflowError if a bound is not finite, `normal` ValueError for a negative
  scale, `integers(0)` ValueError. Arithmetic follows NumPy scalars: dividing by zero gives inf or NaN.
  The interpreter keeps a ghost log of all objective calls and all callback events; specifications talk about this log.
* **Randomness** is an arbitrary oracle stream constrained only by what `numpy.random.Generator` documents
  (ranges, permutations, no replacement): `random()` is between 0 and the largest double below 1, `uniform` in the closed interval
  (`Float64.uniform_mem` shows this of the formula NumPy uses). A second stream stands for operating-system entropy
  (`default_rng(None)`). `argsort` is an arbitrary sorting permutation (numpy's default sort is not stable).
* **Vectors** are `Fin D → Fl`, fixed-size populations `Fin N → Fin D → Fl`, variable-size populations are lists.
* **Algorithm.run** is fuel-indexed; the fuel theorem (C17) shows how much fuel always suffices.
* **Benchmarks** are functions on `Fin D → ℝ` (Mathlib), exact real arithmetic. They are proved to be what the array code of `_evaluate`
  computes: `Problems/NumPy` models arrays with one or two axes, broadcasting, slices, reductions and exceptions; an entry is a real number or undefined.

## 2. Structure of the development

| modules | contents |
|---------|----------|
| `Fl`, `Arith` | numbers; the class `Arith`, its exact instance `exactArith` |
| `Task`, `Prog`, `Alg` | task state machine; programs over the API and their interpreter; `Algorithm.run` (`Alg.exec`) |
| `Spec`, `TaskLemmas`, `TaskProps`, `Duality`, `Conv` | C01-C08, stated over the ghost log |
| `Repair`, `RepairProps`, `Init`, `Integers`, `Single` | C09-C16, C21-C24 |
| `Wp`, `Loops`, `AlgLemmas`, `AlgProps`, `CountProps` | program logic and the generic theorems about `run` |
| `AlgTools`, `PopTools`, `Loose` | rules for the loops and population operations the algorithms share |
| `Trace`, `Steps`, `Post`, `Runs`, `Example` | executions as sequences of states; concrete runs |
| `Algo/*` | one module per algorithm file: the model, its obligations, properties of its own |
| `Summary`, `GreedyProps` | C17-C32 for all modelled algorithms |
| `Total`, `Safe*`, `NoRaise` | programs that do not raise; C71 |
| `Ranks`, `RanksAlgs`, `RanksMore` | algorithms that only compare fitness values; C96 |
| `Longer`, `LongerAlgs` | runs with larger limits continue shorter ones; C97 |
| `BlackBox` | runs depend on the values at the points visited only; C100 |
| `Collapse`, `CollapseMore`, `CollapseShade` | runs whose population has collapsed to one point; C99 |
| `Blind` | algorithms that never call `task.repair` (C101), the refreshing gap of CLPSO (C102) |
| `Sizes` | the size of the population (C103) |
| `Unguided` | two runs on different objectives (C104) |
| `Ranges` | parents in SHADE (C50), weights of fish and ranges of glowworms (C105) |
| `Swarms` | velocities, copies and loudness of cats and bats, depredation of corals (C111) |
| `Rates` | rates and probabilities at 0 and 1 (C112) |
| `Nearby` | neighbourhoods of moves in exact arithmetic (C113) |
| `Attract` | attractions of moves in exact arithmetic (C114) |
| `Recombine` | what new individuals are made of (C115) |
| `Elite` | survival of the best individuals (C116) |
| `Truncate` | truncation selection (C118) |
| `Limits` | velocity limits of particle swarms, memories of SHADE (C119) |
| `Objects` | individuals as objects that share arrays (C120) |
| `Callbacks` | callback lists shared by algorithms (C121) |
| `TaskInit` | construction of tasks from names or problems, constructors of the benchmarks (C122) |
| `Counters` | ages of trees and individuals, trials of bees (C123), size of the forest (C103) |
| `Climb` | when hill climbing ends and what it goes on with (C117) |
| `Matrix` | the repair functions with array operations, on solutions and on whole populations (C106) |
| `Kinds` | the type of the numbers an objective function returns (C107) |
| `CustomInit` | initialization functions supplied by the user (C108): refinement of the default initialization in the program logic |
| `ESRule` | the 1/5 rule of ES(mu+lambda) along a run (C91) |
| `CustomSearch` | local searches supplied by the user to multiple trajectory search (C109) |
| `CustomOps` | operators supplied by the user (C109): genetic algorithm, simulated annealing and coral reefs optimization with arbitrary functions |
| `Problems/Bounds` | default boxes of the benchmarks and the documented minimisers (C110) |
| `Problems/Optima` | what HappyCat, Katsuura, Alpine2, SchafferN4 and Levy have instead of the documented optimum (C44) |
| `Charts`, `ChartsAlgs`, `ChartsMore`, `ChartsMain` | changing the origin and the units of the variables; C98 |
| `Problems/Squares`, `Trig`, `Schwefel` | benchmark functions over the reals, C41-C45, C82 |
| `Problems/NumPy`, `Problems/Code` | NumPy array operations and every `_evaluate` written with them; they compute the functions above, C88 |
| `Problems/Latex` | the formulas `latex_code` returns, compared with the code, C89 |
| `Factory`, `Runner` | C46-C48, C54 |
| `ArgParser` | `util/argparser.py`: C87 |
| `Params*` | interpreter for the keyword handling of constructors and parameter methods, table of all classes, C83-C85 |
| `Float64`, `Double` | IEEE double precision as an instance of `Arith`, which laws of section 4 hold in it, C86 |

**Program logic.** `Prog.wp C Q g p` (weakest precondition) is relative to a context `C`: which points may be evaluated
(`C.G`), which fitness values an evaluation may give (`C.F x v`), whether the operating system's entropy may be used
(`C.ent`), whether the bound on rejection loops may be hit (`C.oof`), whether the best value must be kept (`C.trk`), and
which callback logs are allowed (`C.Ev`). The ghost state is the best value so far, the number of evaluations, and the
log. `wp_sound` ties it to the interpreter once for all. An algorithm has to meet `AlgOK` (or `AlgOKW`, where population
and fitness need not stay aligned) in every context: local obligations for `init_population` and `run_iteration`.
`VerifiedIf H A Good seeded term K al` says it does in all contexts with `H`; `MetBy H env trk P sh` says that an environment
guarantees `H`, if evaluated points satisfy `P` and `C.F x v` is taken to say that `v` was found for `x` (`sh`) or for some point
(not `sh`; then the context is `Untied`). `VerifiedIf.run` derives C25-C29 for every execution, `C17_terminates`, `C30_evaluations` and
`C31_reproducible` the rest.

**`Covered`** (in `Summary`) lists the modelled algorithms for all parameter values, with five flags (keeps the best
solution; passes its generator to `task.repair`; no unbounded rejection loop; fitness stays aligned with population; everything
evaluated is within the bounds) and the numbers of evaluations. C17, C18, C20, C25-C31 are theorems about `Covered`. A constructor may carry a hypothesis
about rounding (section 4); most are needed for the last flag only. `Dominating` lists algorithms that may lose the best solution but whose incumbent is still at
least as good as every individual a callback is shown. `OneToOne` (in `GreedyProps`) lists those with one-to-one survivor
selection. `Uncoupled` (in `Uncoupled`) lists algorithms that may return the best value beside another solution.

**Executions.** `Alg.Trace A env ncb hist w`: `hist` is the list of states (latest first) at the head of the `while` loop in
an execution of `A`. Properties of a single algorithm (C33-C36, C38, C60, C61, ...) are stated for every `Trace`. `Post env
p P`: whenever `p` returns, from any world, the result satisfies `P`.

**Comparing runs.** `Alg.exec_congr`, `Alg.exec_alike` (in `Congr`): algorithms whose parts have the same effects and related results
have identical runs; used for parameters without effect. `Follows G env env' φ p q` (in `Ranks`): on a task and its transform by the
increasing function `G`, `p` and `q` go the same way, with results related by `φ`. `Ordinal A m`: the parts of `A` do so; `Comparing`
(in `RanksMore`) lists the algorithms for which this is proved, which gives C96. `Rescaled` requires that callbacks react to the
transformed fitness values as to the original ones, and that `argsort` permutes equal values in the same way. `Prog.Deaf ke ki p` (in
`Longer`): what `p` does after looking at the task is the same for views that differ in `max_evals` (unless `ke`) and `max_iters` (unless
`ki`) only. `Longer ke ki env env'`: the same task, seed and callbacks with larger limits. Such programs do the same until the shorter run
stops; `Steady` (in `LongerAlgs`) lists all algorithms with the limits they read, which gives C97. The tactic `deaf` (written in
`Longer`) goes through the program text; it only produces proof terms and is not trusted. `Mirrors a env env' φ p q` (in `Charts`): on a
task and the same task in other variables (`Recharted a env env'`, where `a : Chart D` holds a positive factor and an offset for every variable) `p`
and `q` evaluate corresponding points, with results related by `φ`. `Carries a A A' m`: the parts of `A'` mirror those of `A`. `Affine`,
`Translated` and `Scaled` (in `ChartsMain`) list families of algorithms, as functions of the search space, for which this is proved, which gives C98. The
arithmetic has to be exact (`ExactOps`), and `Generator.uniform(lo, hi)` has to be `lo + (hi - lo) * u` with `u` independent of the bounds
(`UnifLaw`), as in NumPy up to rounding. All other draws are arbitrary. `Rests env p m P` (in `Collapse`): from any state, the program `m` evaluates
only the point `p` and shows callbacks only `p`, and its result satisfies `P`. `Stuck env p A s`: so does the loop of `run_task` from the
state `s` with best solution `p`, however many iterations follow. `Centre p` are the laws of arithmetic needed (`p - p = 0`, `p + 0 = p`,
`c * 0 = 0` and the like), proved of exact arithmetic and of double precision.

**Exceptions.** `Total env p P`: `p` raises nothing in any world (the model's bound on rejection loops aside), and the result
satisfies `P`. `Alg.Safe A env`: `init_population` returns a nonempty population without NaN, and no iteration raises. `Robust` (in
`NoRaise`) lists algorithms with the parameters for which they are safe; together with C17 this gives C71. `SafeF` uses the
stronger `Sure` (the program returns, no bound of the model is hit) for multiple trajectory search and its hybrids: the loop of
`mts_ls3v1` ends in exact arithmetic, since its displacement shrinks by a factor of 2/5 in each round. `Live` adds what holds only if the task has not
stopped (then evaluations return infinity, which would break the next iteration, but there is none); used for the fireworks algorithms.

## 3. Properties that are false of the code

Each is refuted in Lean (`_false`), by a concrete run or for every execution; what does hold is proved beside it.

| id | what the code does | theorems |
|----|--------------------|----------|
| C05 | `convergence_data('evals')` has the wrong sign when maximizing | `C05_evals_curve_max_false` |
| C09 | (side remark) `reflect` gives NaN when lower = upper | `C09_reflect_point_false` |
| C13 | `reflect` does not mirror at the bound | `C13_reflect_false` |
| C22 | `Individual.copy` loses the fitness | `C22_copy_false` |
| C31 | algorithms that call `task.repair(x)` or `repair(x, rng=self.random)` are not reproducible with a random repair | `C31_unseeded_false` |
| C36 | jDE: initial scale factor outside the range; MsjDE never adapts | `JDE.C36_jde_false`, `JDE.C36_msjde_false` |
| C37 | simulated annealing: minus sign missing in the exponent, every candidate accepted | `SA.C37_moves_false` |
| C38 | sine cosine algorithm never moves (without rounding) | `SCA.C38_sca_false` |
| C39 | genetic crossover mixes a parent with itself | `GA.C39_crossover_false` |
| C43, C44 | documented optima wrong | `Bench.*_false` |
| C48, C54 | names that cannot be looked up; Runner without algorithms raises | `Factory.*_false`, `Runner.C46_default_false` |
| C49 | glowworm moves to the wrong neighbour | `GSO.C49_move_false` |
| C51 | halving an odd population drops the best | `DE.C51_halve_false` |
| C52 | aging DE divides by zero on a constant objective; returns if no value is zero (exact arithmetic, `SafeE`) | `DE.C52_aging_false`, `DE.C52_aging_partial` |
| C53 | CLPSO shows fitness of another solution | `PSO.C28_clpso_false` |
| C55 | SHADE ends with an exception or not at all after NaN; returns in exact arithmetic with a finite objective (`SafeE`) | `SHADE.C55_shade_false`, `SHADE.cauchy_nan`, `SHADE.C55_shade_partial`, `SHADE.C55_shade_evals_partial` |
| C56, C57 | random search returns a foreign solution; never starts on a point box | `RS.C56_rs_false`, `RS.C57_rs_false` (what holds: `RS.C57_rs_partial`) |
| C58 | HHO, MBO, CA, CSO, FWA, EFWA, MShOA, LOA lose the best evaluated solution | `*.C58_*_false` |
| C59 | monarch butterflies: IndexError in one dimension, coordinates mixed up | `MBO.C59_*_false` |
| C60 | fireworks never move in one dimension | `FWA.C60_*_false` |
| C61 | bare-bones fireworks return a matrix | `FWA.C61_bbfwa_false` |
| C62 | SABA, HSABA: a bat never moves again once its loudness was adapted | `BAT.C62_saba_false` |
| C63 | HBA: TypeError with three of the six strategies | `BAT.C63_hba_false` |
| C64 | `cool_delta` (default): negative temperature after `starting/delta` iterations | `SA.C64_delta_false` |
| C67 | Nelder-Mead evaluates points that are not repaired | `NM.C67_bounds_false` |
| C65 | Nelder-Mead: expansion is dead code, `gamma` has no effect | `NM.C65_expansion_false` |
| C66 | Nelder-Mead with a single point: every iteration raises | `NM.C66_single_false` |
| C70 | anarchic society optimization: ValueError in one dimension, never ends with one individual | `ASO.C70_*_false`, `ASO.C70_partial` |
| C71 | FPA with one, GWO with two, CLPSO with one individual raise, LOA with a pride without females, MTS with four local searches, FWA with one firework in one dimension | `C71_*_false` |
| C72 | mantis search with normalize_space: returns unevaluated solutions, evaluates out of bounds | `MSHOA.C72_*_false` |
| C74 | multiple trajectory search with NaN objective values: fitness of another solution | `MTS.C74_nan_false` |
| C75 | multiple trajectory search enables the solutions with the lowest grades | `MTS.C75_best_false` |
| C76 | DE-MTS with `mts_ls3` returns a solution with the fitness of another one | `HDE.C76_hde_false` |
| C77 | `bonus1`, `bonus2` of DE-MTS are without effect (`x.grades` is set, `x.grade` is read) | `HDE.C77_bonus` |
| C78 | the incumbent of DynFWA is a view of the population; for noisy objectives it changes under its old fitness | `FWA.C78_noisy_false` |
| C79 | CoralReefsOptimization raises in every run of more than `k` iterations (`np.delete` without axis flattens the population) | `CRO.C79_iterations`, `CRO.C79_raises` |
| C80 | LionOptimizationAlgorithm without nomads duplicates its population (`population[-0:]`); otherwise sizes and sex ratios are kept | `LOA.C80_nomads_false`, `LOA.C80_loa_partial` |
| C81 | Segments changed by AnarchicSocietyOptimization never contain the last coordinate | `ASO.C81_last` |
| C82 | Documented minimiser of ModifiedSchwefel is outside its box, with a value above 418 per component | `Bench.C82_modified_false` |
| C83 | `set_parameters(**get_parameters())` raises TypeError for 18 classes and resets a parameter for 7 | `Params.C83_raises_false`, `Params.C83_forgets_false` |
| C84 | `set_parameters` has other defaults than the constructor, ignores its arguments (MTSv1) or always raises (CRO, ES(mu+1)) | `Params.C84_*_false` |
| C86 | CPSO, OVCPSO and CLONALG evaluate solutions out of bounds by rounding; `reflect` leaves the bounds by rounding | `Float64.C86_*_false`, `Float64.C09_reflect_double_false` |
| C87 | default algorithm `jDE` and default problem `Problem` are names the factories refuse, as are 13 accepted problem names | `ArgParser.C87_*_false` |
| C88 | `Elliptic` in dimension 1 gives NaN; `Powell` raises ValueError for dimensions above 8 not divisible by 4 and is 0 below dimension 4 | `Bench.Code.C88_elliptic_false`, `C88_powell_false`, `C88_powell_small` |
| C89 | `latex_code` returns another function than `evaluate` computes for 12 classes | `Bench.Latex.C89_*_false` |
| C90 | `bad_run` stays True after one failed run; BacterialForagingOptimization keeps its counters between runs | `BFO.C90_bad_run_false`, `BFO.C90_bfo_false` |
| C91 | offspring of the evolution strategies always have step size 1; nothing is adapted in ES(mu,lambda) | `ES.C91_ml_false` |
| C92 | the inertia weight of CLPSO rises from 0; the bandwidth of HarmonySearchV1 never exceeds bw_min; the steps of fish school search are scaled to the box in the first iteration only; schedules are constant without the limit they are written in; the least amplitude of EFWA is NaN without max_evals | `PSO.C92_clpso_false`, `HS.C92_hsv1_false`, `FSS.C92_fss_false`, `GWO.C92_gwo_false`, … |
| C93 | negative values reverse the preferences of the artificial bee colony and stop all mutation in clonal selection; roulette selection always takes the last individual | `ABC.C93_abc_false`, `CLONALG.C93_clonalg_pop_false`, `GA.C93_roulette_false` |
| C94 | iterations of the artificial bee colony never end with population_size 2 or 3, or if all values are inf | `ABC.C94_abc_small_false`, `ABC.C94_abc_inf_false` |
| C95 | gravitational search: velocities and positions become NaN when all agents have the same value | `GSA.C95_gsa_false` |
| C96 | six algorithms go another way if the objective is replaced by an increasing function of it | `GSA.C96_false`, `FSS.C96_false`, `MTS.C96_false`, `ABC.C96_false`, `CLONALG.C96_false`, `SA.C96_false` |
| C97 | six algorithms go another way if `max_iters` (or `max_evals`) is raised; the grey wolves can find a worse value with more evaluations | `HHO.C97_false`, `MFO.C97_false`, `CA.C97_false`, `FSS.C97_false`, `PSO.C97_ovcpso_false`, `GWO.C97_false` |
| C98 | GWO, HHO, MKE versions 1 and 3, mutated PSO and the repair function `reflect` depend on the origin of the variables; hill climbing, ES(1+1), GSA and FA on their units | `GWO.C98_gwo_false`, `HHO.C98_hho_false`, `MKE.C98_mke1_false`, `MKE.C98_mke3_false`, `PSO.C98_mutated_false`, `Repair.C98_reflect_false`, `HC.C98_hc_units_false`, `ES.C98_es1_units_false`, `GSA.C98_gsa_units_false`, `FA.C98_fa_units_false` |
| C99 | GWO, FA, ABC, BA, HS and MKE version 1 leave a collapsed population; mutated center PSO evaluates NaN then (its mutations divide the mean velocity by its largest component); an archive entry elsewhere leads SHADE away | `Collapsed.C99_shade_archive_false`, `Collapsed.C99_gwo_false`, `Collapsed.C99_fa_false`, `Collapsed.C99_abc_false`, `Collapsed.C99_ba_false`, `Collapsed.C99_hs_false`, `Collapsed.C99_mke1_false`, `Collapsed.C99_mcpso_false` |
| C102 | the refreshing gap `m >= 1` of CLPSO, `c1`, `c2` and `w` have no effect (the counters it is compared with are never increased) | `PSO.C102_clpso` |
| C103 | bacterial foraging loses a bacterium at the first reproduction if `population_size` is odd; with one bacterium none is left and a task limited by `max_evals` only never ends | `BFO.C103_bfo_false`, `BFO.C103_bfo_after`, `BFO.C103_bfo_endless` |
| C104 | glowworm swarm optimization and simulated annealing at positive temperatures evaluate the same points for every objective | `GSO.C104_gso`, `SA.C104_sa`, `SA.C104_sa_linear`, `SA.C104_sa_delta` |
| C105 | fish school search begins with weights below `min_w` if `w_scale / 2 < min_w` | `FSS.C105_initial_false` |
| C106 | cuckoo search passes its population to `task.repair`; `limit_inverse`, `wang`, `rand`, `reflect` then raise `IndexError`; jDE and SHADE pass `rand` a method, which raises `TypeError` | `CS.C106_cs_iteration_false`, `CS.C106_cs_false`, `JDE.C106_jde_false`, `SHADE.C106_shade_false` |
| C107 | `get_best` ignores a single number of type `float32`, `float16` or `longdouble`: SA, HC, RS and ES(1+1) end with `AttributeError`; HS, GWO, GA and FSS report the best of the initial population | `C107_get_best_false`, `C107_start_false`, `SA.C107_sa_false`, `HC.C107_hc_false`, `RS.C107_rs_false`, `ES.C107_es_false`, `HS.C107_hs_false`, `GWO.C107_gwo_false`, `GA.C107_ga_false`, `FSS.C107_fss_false` |
| C108 | points an initialization function generates outside the bounds are evaluated without repair, e.g. those of examples/custom_init_population.py | `C108_unrepaired_false`, `C108_example_false` |
| C109 | coral reefs optimization evaluates what user functions return without repair; the genetic algorithm ignores what selection and crossover return; a local search that forgets what it found makes multiple trajectory search lose the best | `C109_cro_unrepaired_false`, `GA.C109_ga_ignored_false`, `MTS.C109_mts_forgetful_false` |
| C110 | the default box of Qing does not contain the minimiser beyond dimension 250000; that of ModifiedSchwefel never does | `Bench.C110_qing_false`, `Bench.C110_modifiedSchwefel_false` |
| C112 | with `loudness` 1 no bat of `BatAlgorithm` accepts anything; with `pa` 1 no nest is abandoned; with rates of 1 corals do not cross or mutate and CLONALG flips no bit; with `mutation_rate` 0 every krill mutates in every coordinate | `C112_*_reversed` |
| C113 | local seeding of the forest uses a fifth of the upper bound as the largest step: where the upper bound is 0 seeds never leave their tree | `FOA.C113_localSeed_false` |
| C115 | broadcast spawning crosses coral `i` with coral `2 i`, so the larva of the first spawner is always a copy; the food of krill lies outside of the herd when objective values have both signs | `CRO.C115_first_false`, `KH.C115_food_false` |
| C116 | the genetic algorithm replaces everyone and may lose its best individual; a forest with `lifetime` 0 loses its best tree | `GA.C116_ga_false`, `FOA.C116_lifetime_false` |
| C117 | without `max_evals` an iteration of hill climbing may never end; hill climbing forgets the fitness of its current solution and may go on with a worse one | `HC.C117_ends_false`, `HC.C117_climbs_false` |
| C119 | the first velocity limits of OVCPSO are swapped; the later ones come from positions and may exclude 0 | `PSO.C119_ovc_false`, `PSO.C119_ovc_partial` |
| C121 | appended callbacks know no algorithm, shared ones the one constructed last | `Cb.C121_algorithm_false`, `Cb.C121_appended_false` |
| C122 | SchafferN2 and SchafferN4 ignore the dimension, Trid the bounds, Perm raises if bounds are given; bounds are unchecked | `TaskInit.C122_given_false`, `TaskInit.C122_unchecked_false` |
| C123 | the limit of the bees is checked for the last source instead of the one that was tried | `ABC.C123_limit_false` |
| C85 | `get_parameters` leaves out 12 keywords of 9 classes | `Params.C85_missing_false` |

## 4. Hypotheses about arithmetic

Theorems hold for every `Arith` unless they mention one of these; each is proved for exact arithmetic next to its definition.

* `AffineLaw B` (BFO, SA, HC, RS): `lower + (upper - lower) * u` with `u` in [0, 1 - 2^-53] stays in the box. `SubNeg` (SA): `a - b` is
  negative if `a < b`. `MirrorLaw` (`wang`). All three are proved for double precision (`Float64.affineLaw`, `Float64.subNeg`,
  `Float64.mirrorLaw`).
* `PSO.CenterLaw`, `PSO.OppLaw`: the centre of points in the box and the opposite point are in the box; the code evaluates
  them without repair. Both are false in double precision (`Float64.C86_cpso_false`, `Float64.C86_ovcpso_false`).
* `CLONALG.DecodeLaw`: decoding a bit string gives a point in the box. False in double precision (`Float64.C86_clonalg_false`).
* `SHADE.CapLaw`: truncating a size does not exceed rounding it. `CA.DeathLaw`: used for C58_ca_partial only.
* `SigmaLaw` (Lévy flights), `BEA.DecayLaw`, `ES.Par.Steps`, the value of 2*pi (SCA): signs of computed scales, for C71.
* FWA: `reflect` leads into the box (exact arithmetic, lower < upper: `FWA.reflectLaw_exact`; false in double precision:
  `Float64.C09_reflect_double_false`).
* `GSA.NanLaw` (NaN spreads, 0/0 is NaN), `ABC.InfProb` (0/0 is not positive): C94, C95. `CLONALG.ExpLaw`, `SHADE.ExactArith`: C93.
* C37, C38, C40, C57, C113, C114, part of C36, C112, C115, C118, C119 and C123: stated for exact arithmetic.

## 5. Simplifications in the models

* Repair functions work in place; the model uses the returned point for both. They are called on fresh arrays or rows that
  are overwritten by the result, except where a definition says otherwise.
* Repairing a whole matrix with `apply_along_axis` is repairing row by row, and `vectorize`d or summed expressions are folds
  from the left (NumPy may sum pairwise); harmless since theorems quantify over all arithmetics or do not depend on it.
* `rng.choice` with weights returns arbitrary admissible indices: the distribution is not modelled. Negative or NaN counts
  cast to `int` follow x86 (`FWA.toInt`).
* `get_best` is modelled on vectors and fitness values of type `float`; what it does with numbers of other types is C107. Type errors
  from mixed arrays are not modelled.
* Evolution strategies: (1+1) and (mu+1) keep a list with one element. PSO: velocities are repaired coordinatewise.
* jDE, SHADE and variants pass `rng=self.random`, a bound method: treated as "not the seeded generator", for the repair functions that do
  not look at it. What happens with `rand` is C106. Likewise cuckoo search repairs its population row by row, as `limit` does; for the
  other functions see C106.
* SA: dividing by temperature 0 follows NumPy (inf/NaN, warning only). CA: divisors are nonzero for the parameters allowed.
* MBO: the step size computed by `levy` is not used by the code and not modelled; the alias between the two halves is.
* SHADE: the summation order in the weighted means and the recursion depth of `cauchy` are not modelled (fuel instead).
* Rejection loops have fuel; the flag `term` in `Covered` tells which algorithms have none.
* Benchmarks are over the reals. Constants are the decimal numbers written in the source, not the floats they round to.
* Parameters: `ParamsTable` transcribes all constructors, `set_parameters` and `get_parameters`. Values are opaque; C83 and C84 are decided
  by one run on symbols per class, justified by `call_map` (the interpreter commutes with every map of values).
* Runner: algorithms and problems are looked up by name, the task factory is a parameter; file contents are not modelled.
  Factory: `lower` (str.lower) is a parameter with the laws used.
* ArgParser: a command line is the list of its option occurrences; splitting `argv` is left to `argparse`; `int` is a parameter.

## 6. Not modelled

All algorithms of the library are modelled; the base class hooks of user-defined algorithms are arbitrary programs. In LionOptimizationAlgorithm arrays shared by a lion and its copy are treated as values (Verif/Algo/LOA.lean says when this matters).
Furthermore: logging, plotting, pandas export contents, threads and processes (only the flag "am I in the main thread"),
warnings, signed zeros, memory aliasing except where a definition says so.

## 7. Trusted base

* Lean 4.33 kernel; axioms at most `propext`, `Classical.choice`, `Quot.sound` (checked by `vcheck`).
* Mathlib definitions of ℝ, sin, cos, exp, sqrt, log (benchmarks only) and of ℚ.
* The reading of the Python source recorded in the comments of each definition.
* NumPy behaviour used by the code: stated with each definition (clip, argmin, argsort, where, ...).

Theorems are tested against wrong programs: `seeded/LOG.jsonl` lists edits of the model that break a claim, and the theorems
that fail after each edit.
