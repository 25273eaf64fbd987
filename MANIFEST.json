{
 "claims": [
  {
   "property": "C01",
   "status": "proved",
   "theorems": [
    "NiaPy.C01_budget"
   ],
   "note": "Every client program, including programs that catch exceptions."
  },
  {
   "property": "C02",
   "status": "proved",
   "theorems": [
    "NiaPy.C02_stopped_stays",
    "NiaPy.C02_eval_stopped"
   ],
   "note": ""
  },
  {
   "property": "C03",
   "status": "proved",
   "theorems": [
    "NiaPy.C03_xf_is_best"
   ],
   "note": "NaN values are ignored by the comparison, as in the code."
  },
  {
   "property": "C04",
   "status": "proved",
   "theorems": [
    "NiaPy.C04_monotone",
    "NiaPy.C04_record_monotone",
    "NiaPy.C04_record_entry"
   ],
   "note": ""
  },
  {
   "property": "C05",
   "status": "partial",
   "theorems": [
    "NiaPy.C05_evals_curve_partial",
    "NiaPy.C05_evals_curve_min",
    "NiaPy.C05_iters_curve",
    "NiaPy.C05_evals_curve_max_false"
   ],
   "note": "Holds when minimizing; when maximizing the values of the evals curve are negated, proved by a concrete run."
  },
  {
   "property": "C06",
   "status": "proved",
   "theorems": [
    "NiaPy.C06_duality"
   ],
   "note": ""
  },
  {
   "property": "C07",
   "status": "proved",
   "theorems": [
    "NiaPy.C07_cutoff",
    "NiaPy.C07_default_cutoff"
   ],
   "note": ""
  },
  {
   "property": "C08",
   "status": "proved",
   "theorems": [
    "NiaPy.C08_raising_objective"
   ],
   "note": ""
  },
  {
   "property": "C09",
   "status": "proved",
   "theorems": [
    "NiaPy.C09_limit",
    "NiaPy.C09_limit_inverse",
    "NiaPy.C09_rand",
    "NiaPy.C09_wang",
    "NiaPy.C09_wang_exact",
    "NiaPy.C09_reflect",
    "NiaPy.C09_reflect_point_false",
    "NiaPy.Float64.C09_wang_double"
   ],
   "note": "reflect needs lower < upper (as the statement says); with lower = upper it yields NaN, proved by example. wang is proved for every arithmetic in which mirroring stays inside (holds for exact and for correctly rounded arithmetic). In double precision: Float64.C09_wang_double; reflect can leave the bounds by rounding (C86)."
  },
  {
   "property": "C10",
   "status": "proved",
   "theorems": [
    "NiaPy.C10_identity",
    "NiaPy.C10_idempotent",
    "NiaPy.C10_idempotent_reflect"
   ],
   "note": ""
  },
  {
   "property": "C11",
   "status": "proved",
   "theorems": [
    "NiaPy.C11_is_feasible",
    "NiaPy.C11_nan_infeasible",
    "NiaPy.C11_repaired_feasible"
   ],
   "note": ""
  },
  {
   "property": "C12",
   "status": "proved",
   "theorems": [
    "NiaPy.C12_nan"
   ],
   "note": ""
  },
  {
   "property": "C13",
   "status": "partial",
   "theorems": [
    "NiaPy.C13_reflect_partial",
    "NiaPy.C13_reflect_false"
   ],
   "note": "The statement is false of the code: the result is the mirrored point only for violations below one box width in a particular direction; refuted by a concrete point."
  },
  {
   "property": "C14",
   "status": "proved",
   "theorems": [
    "NiaPy.C14_full_array"
   ],
   "note": ""
  },
  {
   "property": "C15",
   "status": "proved",
   "theorems": [
    "NiaPy.C15_objects_to_array"
   ],
   "note": ""
  },
  {
   "property": "C16",
   "status": "proved",
   "theorems": [
    "NiaPy.C16_get_best",
    "NiaPy.C16_get_best_first",
    "NiaPy.C16_nan_keeps_incumbent",
    "NiaPy.C16_nan_first"
   ],
   "note": "NaN-free for the main statement; what NaN does is proved separately."
  },
  {
   "property": "C17",
   "status": "proved",
   "theorems": [
    "NiaPy.C17_max_iters",
    "NiaPy.C17_max_evals",
    "NiaPy.C17_stopped",
    "NiaPy.C17_uncoupled"
   ],
   "note": "For all algorithms in Covered without an unbounded rejection loop; C17_stopped for every algorithm program."
  },
  {
   "property": "C18",
   "status": "proved",
   "theorems": [
    "NiaPy.C18_order",
    "NiaPy.C18_count",
    "NiaPy.C18_uncoupled"
   ],
   "note": "For all algorithms in Covered."
  },
  {
   "property": "C19",
   "status": "proved",
   "theorems": [
    "NiaPy.C19_exceptions",
    "NiaPy.C19_first_callback"
   ],
   "note": ""
  },
  {
   "property": "C20",
   "status": "proved",
   "theorems": [
    "NiaPy.C20_sign"
   ],
   "note": "For all algorithms in Covered."
  },
  {
   "property": "C21",
   "status": "proved",
   "theorems": [
    "NiaPy.C21_not_skipped",
    "NiaPy.C21_first_admissible",
    "NiaPy.C21_all_skipped_diverges"
   ],
   "note": ""
  },
  {
   "property": "C22",
   "status": "partial",
   "theorems": [
    "NiaPy.C22_copy_partial",
    "NiaPy.C22_copy_false"
   ],
   "note": "The fitness is lost by copy(): refuted."
  },
  {
   "property": "C23",
   "status": "proved",
   "theorems": [
    "NiaPy.C23_repaired_before_eval"
   ],
   "note": ""
  },
  {
   "property": "C24",
   "status": "proved",
   "theorems": [
    "NiaPy.C24_default_init"
   ],
   "note": ""
  },
  {
   "property": "C25",
   "status": "proved",
   "theorems": [
    "NiaPy.C25_all_feasible",
    "NiaPy.C25_feasible",
    "NiaPy.C25_uncoupled"
   ],
   "note": "For all algorithms in Covered whose last flag is set, for every repair function that puts its argument within the bounds (C09). For PSO with center, OVCPSO, CLONALG, BFO, SA, HC and FWA, which evaluate computed points without repair, under the hypotheses on rounding listed in DESIGN.md section 4."
  },
  {
   "property": "C26",
   "status": "proved",
   "theorems": [
    "NiaPy.C26_all_best",
    "NiaPy.C26_returned_is_best",
    "NiaPy.C26_uncoupled"
   ],
   "note": "For all algorithms in Covered."
  },
  {
   "property": "C27",
   "status": "proved",
   "theorems": [
    "NiaPy.C27_all_solution",
    "NiaPy.C27_solution_fitness"
   ],
   "note": "For all algorithms in Covered."
  },
  {
   "property": "C28",
   "status": "proved",
   "theorems": [
    "NiaPy.C28_all_aligned",
    "NiaPy.C28_callback_log",
    "NiaPy.MTS.C28_mts_false",
    "NiaPy.MTS.C28_mtsv1_false"
   ],
   "note": "For the algorithms in Covered marked aligned (fourth flag). CLPSO is not; see C53. MultipleTrajectorySearch can show a population misaligned with its fitness values (mts_ls3, mts_ls1v1)."
  },
  {
   "property": "C29",
   "status": "proved",
   "theorems": [
    "NiaPy.C29_all_monotone",
    "NiaPy.C29_uncoupled"
   ],
   "note": "For all algorithms in Covered; NaN-free objectives."
  },
  {
   "property": "C30",
   "status": "proved",
   "theorems": [
    "NiaPy.C30_exact",
    "NiaPy.C30_all_bounds",
    "NiaPy.C30_uncoupled"
   ],
   "note": "For all algorithms in Covered; the number of evaluations per algorithm is in Covered."
  },
  {
   "property": "C31",
   "status": "proved",
   "theorems": [
    "NiaPy.C31_all_seeded",
    "NiaPy.C31_deterministic_repair",
    "NiaPy.C31_unseeded_false",
    "NiaPy.C31_uncoupled"
   ],
   "note": "For the algorithms in Covered that pass their generator to task.repair, and for every algorithm if the repair function ignores its generator; false otherwise, proved for the bat algorithm with rand."
  },
  {
   "property": "C32",
   "status": "proved",
   "theorems": [
    "NiaPy.C32_greedy"
   ],
   "note": "For the algorithms in OneToOne (includes jDE and MsjDE)."
  },
  {
   "property": "C33",
   "status": "proved",
   "theorems": [
    "NiaPy.GWO.C33_leaders"
   ],
   "note": ""
  },
  {
   "property": "C34",
   "status": "proved",
   "theorems": [
    "NiaPy.PSO.C34_personal_best",
    "NiaPy.PSO.C34_ovcpso",
    "NiaPy.PSO.C34_clpso",
    "NiaPy.ASO.C34_aso"
   ],
   "note": "In full for PSO, CPSO, MPSO, MCPSO, MCUPSO and anarchic society optimization. For OVCPSO and CLPSO: no fitness the particle has had is better than the recorded one, and the recorded solution was evaluated with it."
  },
  {
   "property": "C35",
   "status": "proved",
   "theorems": [
    "NiaPy.SHADE.C35_size",
    "NiaPy.SHADE.C35_best",
    "NiaPy.SHADE.C35_archive"
   ],
   "note": "For SHADE, L-SHADE and ILSHADE, every execution. C35_best for objectives without NaN; C35_archive if truncation does not exceed rounding of the same number (CapLaw)."
  },
  {
   "property": "C36",
   "status": "partial",
   "theorems": [
    "NiaPy.JDE.C36_jde_partial",
    "NiaPy.JDE.C36_jde_false",
    "NiaPy.JDE.C36_msjde_false",
    "NiaPy.SHADE.C36_shade_partial",
    "NiaPy.SHADE.C36_shade_exact",
    "NiaPy.Float64.jde_scale"
   ],
   "note": "False of jDE for the initial scale factor 2 and of MsjDE (never adapts); proved otherwise for jDE. SHADE variants: scale factors in range in every execution, crossover rates except for NaN; in full (including the memories) without rounding for finite objectives. The hypothesis of C36_jde_partial on rounding is proved for double precision (Float64.jde_scale)."
  },
  {
   "property": "C37",
   "status": "partial",
   "theorems": [
    "NiaPy.SA.C37_accept_false",
    "NiaPy.SA.C37_moves_false",
    "NiaPy.SA.C37_accept_partial",
    "NiaPy.SA.C37_example_false"
   ],
   "note": "False of the code: the exponent lacks its minus sign, so at positive temperature every candidate is accepted (C37_moves_false, every execution). C37_accept_partial: what holds at negative temperatures."
  },
  {
   "property": "C38",
   "status": "partial",
   "theorems": [
    "NiaPy.SCA.C38_sca_false"
   ],
   "note": "False of the code: computed without rounding, no execution ever changes the population."
  },
  {
   "property": "C39",
   "status": "partial",
   "theorems": [
    "NiaPy.GA.C39_crossover_false"
   ],
   "note": "False of the code: the second parent is the first one; refuted."
  },
  {
   "property": "C40",
   "status": "proved",
   "theorems": [
    "NiaPy.CLONALG.C40_decode_bounds",
    "NiaPy.CLONALG.C40_decode_ends",
    "NiaPy.CLONALG.C40_decode_mono"
   ],
   "note": "In exact arithmetic."
  },
  {
   "property": "C41",
   "status": "proved",
   "theorems": [
    "NiaPy.Bench.C41_sphere",
    "NiaPy.Bench.C41_sphere2",
    "NiaPy.Bench.C41_sphere3",
    "NiaPy.Bench.C41_sumSquares",
    "NiaPy.Bench.C41_chungReynolds",
    "NiaPy.Bench.C41_schumerSteiglitz",
    "NiaPy.Bench.C41_bentCigar",
    "NiaPy.Bench.C41_ridge",
    "NiaPy.Bench.C41_zakharov",
    "NiaPy.Bench.C41_schwefel221",
    "NiaPy.Bench.C41_schwefel222",
    "NiaPy.Bench.C41_step",
    "NiaPy.Bench.C41_step2",
    "NiaPy.Bench.C41_step3",
    "NiaPy.Bench.C41_elliptic",
    "NiaPy.Bench.C41_powell",
    "NiaPy.Bench.C41_rosenbrock",
    "NiaPy.Bench.C41_qing",
    "NiaPy.Bench.C41_quintic",
    "NiaPy.Bench.C42_csendes"
   ],
   "note": "Over the real numbers."
  },
  {
   "property": "C42",
   "status": "proved",
   "theorems": [
    "NiaPy.Bench.C42_ackley",
    "NiaPy.Bench.C42_alpine1",
    "NiaPy.Bench.C42_csendes",
    "NiaPy.Bench.C42_griewank",
    "NiaPy.Bench.C42_pinter",
    "NiaPy.Bench.C42_rastrigin",
    "NiaPy.Bench.C42_salomon",
    "NiaPy.Bench.C42_schafferN2",
    "NiaPy.Bench.C42_expandedSchaffer",
    "NiaPy.Bench.C42_weierstrass",
    "NiaPy.Bench.C42_whitley",
    "NiaPy.Bench.C42_michalewicz_bound",
    "NiaPy.Bench.C41_hgbat",
    "NiaPy.Bench.C41_perm"
   ],
   "note": "Over the real numbers."
  },
  {
   "property": "C43",
   "status": "partial",
   "theorems": [
    "NiaPy.Bench.C43_trid",
    "NiaPy.Bench.C43_styblinskiTang",
    "NiaPy.Bench.C43_stepint_partial",
    "NiaPy.Bench.C43_stepint_false"
   ],
   "note": "Trid and Styblinski-Tang proved. The documented minimum 0 of Stepint is refuted; the true minimum over the box is proved."
  },
  {
   "property": "C44",
   "status": "partial",
   "theorems": [
    "NiaPy.Bench.C44_dixonPrice",
    "NiaPy.Bench.C44_dixonPrice_false",
    "NiaPy.Bench.C44_discus_false",
    "NiaPy.Bench.C44_happyCat_false",
    "NiaPy.Bench.C44_katsuura_false",
    "NiaPy.Bench.C44_alpine2_false",
    "NiaPy.Bench.C44_expandedGriewank_partial",
    "NiaPy.Bench.C44_expandedGriewank_false",
    "NiaPy.Bench.C44_levy_false",
    "NiaPy.Bench.C44_schafferN4_false",
    "NiaPy.Bench.C44_cosineMixture_false",
    "NiaPy.Bench.C44_dixonPrice_point",
    "NiaPy.Bench.C44_discus_partial",
    "NiaPy.Bench.C44_happyCat_one",
    "NiaPy.Bench.C44_levy_one",
    "NiaPy.Bench.C44_schafferN4_max",
    "NiaPy.Bench.C44_cosineMixture_partial",
    "NiaPy.Bench.C44_happyCat_partial",
    "NiaPy.Bench.C44_katsuura_partial",
    "NiaPy.Bench.C44_alpine2_partial",
    "NiaPy.Bench.C44_schafferN4_partial",
    "NiaPy.Bench.C44_levy_partial"
   ],
   "note": "The documented optima are refuted at concrete points, except that of DixonPrice (attained and minimal, although the function is another one) and, in one dimension, those of HappyCat and Levy. What the code has instead, within the bounds: Discus -10^8 at (-100, 0, ..., 0), CosineMixture -0.9 D at (1, ..., 1), ExpandedGriewankPlusRosenbrock -(D - 1) at (1, ..., 1), HappyCat (sqrt D - 1)^2 / 2 at (-sqrt D, ..., -sqrt D), Katsuura at (100, ..., 100, -100); the minimum of SchafferN4 is between 0.2914 and 0.2933, that of Levy between -45.5625 (D - 1) and 1 - 44.3 (D - 1); the documented minimum of Alpine2 is its maximum (up to the digits given) and that of SchafferN4 too. Not determined: the minima of Levy, SchafferN4 and Alpine2 more closely."
  },
  {
   "property": "C45",
   "status": "proved",
   "theorems": [
    "NiaPy.Problem.C45_dimension"
   ],
   "note": ""
  },
  {
   "property": "C46",
   "status": "proved",
   "theorems": [
    "NiaPy.Runner.C46_results"
   ],
   "note": ""
  },
  {
   "property": "C47",
   "status": "proved",
   "theorems": [
    "NiaPy.Runner.C47_export"
   ],
   "note": ""
  },
  {
   "property": "C48",
   "status": "partial",
   "theorems": [
    "NiaPy.Factory.C48_problem_lookup",
    "NiaPy.Factory.C48_algorithm_lookup",
    "NiaPy.Factory.C48_problem_names_partial",
    "NiaPy.Factory.C48_problem_reachable",
    "NiaPy.Factory.C48_problem_names_false",
    "NiaPy.Factory.C48_algorithm_names_partial",
    "NiaPy.Factory.C48_algorithm_names_false"
   ],
   "note": "False for 13 problem classes and 3 algorithm classes, proved for all others."
  },
  {
   "property": "C49",
   "status": "partial",
   "theorems": [
    "NiaPy.GSO.C49_move_false"
   ],
   "note": "False of the code; refuted."
  },
  {
   "property": "C50",
   "status": "proved",
   "theorems": [
    "NiaPy.DE.C50_trial",
    "NiaPy.DE.C50_crossRand1",
    "NiaPy.DE.C50_crossBest1",
    "NiaPy.DE.C50_crossRand2",
    "NiaPy.DE.C50_crossBest2",
    "NiaPy.DE.C50_crossCurr2Rand1",
    "NiaPy.DE.C50_crossCurr2Best1",
    "NiaPy.SHADE.C50_cross",
    "NiaPy.SHADE.C50_shade"
   ],
   "note": ""
  },
  {
   "property": "C51",
   "status": "partial",
   "theorems": [
    "NiaPy.DE.C51_halve_partial",
    "NiaPy.DE.C51_halve_false"
   ],
   "note": "Proved for an even number of individuals; false for an odd number, refuted by a concrete population."
  },
  {
   "property": "C52",
   "status": "partial",
   "theorems": [
    "NiaPy.DE.C52_aging_false",
    "NiaPy.DE.C52_aging_partial"
   ],
   "note": "False of the code: refuted by a concrete run on a constant objective. C52_aging_partial: in exact arithmetic with the default lifetime it returns a solution if all objective values are finite and none is zero."
  },
  {
   "property": "C53",
   "status": "partial",
   "theorems": [
    "NiaPy.PSO.C28_clpso_false"
   ],
   "note": "False of the code: refuted by a concrete run."
  },
  {
   "property": "C54",
   "status": "partial",
   "theorems": [
    "NiaPy.Runner.C46_default_false"
   ],
   "note": "False of the code: KeyError whenever there is a run to do."
  },
  {
   "property": "C55",
   "status": "partial",
   "theorems": [
    "NiaPy.SHADE.C55_shade_false",
    "NiaPy.SHADE.cauchy_nan",
    "NiaPy.SHADE.C55_shade_partial",
    "NiaPy.SHADE.C55_shade_evals_partial"
   ],
   "note": "False of the code: refuted by a concrete run; cauchy with a NaN location never returns. C55_shade_partial, C55_shade_evals_partial: in exact arithmetic with a finite objective, the algorithms return a solution unless the recursion limit is reached by an unbroken series of draws below 1/2."
  },
  {
   "property": "C56",
   "status": "partial",
   "theorems": [
    "NiaPy.RS.C56_rs_false",
    "NiaPy.RS.C56_rs_partial"
   ],
   "note": "False of the code: refuted by a concrete run. C56_rs_partial: evaluated points in the box, incumbent monotone, returned fitness is the best obtained."
  },
  {
   "property": "C57",
   "status": "partial",
   "theorems": [
    "NiaPy.RS.C57_rs_false",
    "NiaPy.RS.fresh_stuck",
    "NiaPy.RS.C57_rs_partial"
   ],
   "note": "False of the code: proved for every single-point box, every random stream and every number of rounds (computed without rounding). What holds: if some coordinate of the box has positive width and the first m * D random numbers differ, a run with m iterations or m evaluations returns a solution (exact arithmetic)."
  },
  {
   "property": "C58",
   "status": "partial",
   "theorems": [
    "NiaPy.HHO.C58_hho_false",
    "NiaPy.MBO.C58_mbo_false",
    "NiaPy.CA.C58_ca_false",
    "NiaPy.CSO.C58_cso_false",
    "NiaPy.FWA.C58_fwa_false",
    "NiaPy.FWA.C58_efwa_false",
    "NiaPy.FWA.C58_fwa_worse_false",
    "NiaPy.FWA.C58_fwa_partial",
    "NiaPy.CA.C58_ca_partial",
    "NiaPy.C58_monotone_partial",
    "NiaPy.C58_shown_partial",
    "NiaPy.MSHOA.C58_mshoa_false",
    "NiaPy.LOA.C58_loa_false"
   ],
   "note": "False of the code: refuted by concrete runs; in the fireworks algorithms the incumbent even gets worse. C58_ca_partial: true of the camel algorithm if no fitness is negative. C58_monotone_partial and C58_shown_partial (not for the fireworks algorithms): the incumbent never gets worse and is at least as good as every individual shown. C58_fwa_partial: what a fireworks iteration returns is its first and best individual."
  },
  {
   "property": "C59",
   "status": "partial",
   "theorems": [
    "NiaPy.MBO.C59_mbo_false",
    "NiaPy.MBO.C59_adjust_false",
    "NiaPy.MBO.C59_coordinate_false",
    "NiaPy.MBO.C59_mbo_partial"
   ],
   "note": "False of the code: IndexError in one dimension; in more dimensions every coordinate is taken from the second one. C59_mbo_partial: in two dimensions or more, with two butterflies or more in both subpopulations, it returns a solution."
  },
  {
   "property": "C60",
   "status": "partial",
   "theorems": [
    "NiaPy.FWA.C60_explode_false",
    "NiaPy.FWA.C60_gaussian_false",
    "NiaPy.FWA.C60_explodeE_false",
    "NiaPy.FWA.C60_gaussianE_false",
    "NiaPy.FWA.C60_fwa_false",
    "NiaPy.FWA.C60_rest",
    "NiaPy.FWA.C60_partial"
   ],
   "note": "False of the code, for every execution in one dimension: C60_fwa_false says that every individual of every population is one of the initial ones. C60_partial: in two or more dimensions every coordinate can be displaced; C60_rest: never all at once."
  },
  {
   "property": "C61",
   "status": "partial",
   "theorems": [
    "NiaPy.FWA.C61_bbfwa_false",
    "NiaPy.FWA.C61_bbfwa_partial"
   ],
   "note": "False of the code: refuted for every run with a constant objective. C61_bbfwa_partial: true after the first improvement."
  },
  {
   "property": "C62",
   "status": "partial",
   "theorems": [
    "NiaPy.BAT.C62_saba_false",
    "NiaPy.BAT.freezes_exact",
    "NiaPy.Float64.freezes"
   ],
   "note": "False of the code, for every execution: from then on neither the bat nor its fitness changes. The hypothesis on rounding (Freezes) is proved for exact arithmetic (freezes_exact) and for double precision (Float64.freezes)."
  },
  {
   "property": "C63",
   "status": "partial",
   "theorems": [
    "NiaPy.BAT.C63_hba_false",
    "NiaPy.BAT.C63_hba_run_false",
    "NiaPy.BAT.C63_hba_partial"
   ],
   "note": "False of the code. C63_hba_partial: for strategies that take x_b the local search is the strategy followed by repair (and the algorithm is in Covered)."
  },
  {
   "property": "C64",
   "status": "partial",
   "theorems": [
    "NiaPy.SA.C64_schedule",
    "NiaPy.SA.C64_delta_false",
    "NiaPy.SA.C64_linear_partial"
   ],
   "note": "False of the default cooling, refuted for every execution long enough (C64_delta_false); C64_linear_partial proves it for cool_linear. Without rounding."
  },
  {
   "property": "C65",
   "status": "partial",
   "theorems": [
    "NiaPy.NM.C65_expansion_false"
   ],
   "note": "False of the code, for every run: runs with different gamma are the same (exec equality)."
  },
  {
   "property": "C66",
   "status": "partial",
   "theorems": [
    "NiaPy.NM.C66_single_false",
    "NiaPy.NM.C66_partial"
   ],
   "note": "False of the code, for every execution with a single point (exact arithmetic with the IEEE rules for NaN). C66_partial: with two points or more it returns a solution."
  },
  {
   "property": "C67",
   "status": "partial",
   "theorems": [
    "NiaPy.NM.C67_bounds_false",
    "NiaPy.NM.C67_partial"
   ],
   "note": "False of the code: a run with the default parameters evaluates 2.4 on the box [-2, 2]. C67_partial: the initial simplex is evaluated within the bounds."
  },
  {
   "property": "C68",
   "status": "proved",
   "theorems": [
    "NiaPy.SHADE.C68_memory"
   ],
   "note": "NextSlot compares the two memories element by element."
  },
  {
   "property": "C69",
   "status": "proved",
   "theorems": [
    "NiaPy.BAT.C69_loudness",
    "NiaPy.BAT.C69_range"
   ],
   "note": "C69_range is about exact arithmetic."
  },
  {
   "property": "C70",
   "status": "partial",
   "theorems": [
    "NiaPy.ASO.C70_dimension_false",
    "NiaPy.ASO.C70_first_false",
    "NiaPy.ASO.C70_single_false",
    "NiaPy.ASO.C70_run_false",
    "NiaPy.ASO.C70_partial",
    "NiaPy.Float64.roams"
   ],
   "note": "False of the code. C70_dimension_false: in one dimension an iteration raises as soon as a policy value is below 1/2, C70_first_false: which it is in the first iteration. C70_single_false: with one individual no iteration ends. C70_partial: with two dimensions or more, a run that ends returns a solution, if the repair function makes the coordinates finite that the movements lead to (Roams; met by limit in double precision, Float64.roams)."
  },
  {
   "property": "C71",
   "status": "partial",
   "theorems": [
    "NiaPy.C71_max_iters",
    "NiaPy.C71_max_evals",
    "NiaPy.C71_abc",
    "NiaPy.C71_hc",
    "NiaPy.HC.C117_returns",
    "NiaPy.C71_fpa_false",
    "NiaPy.C71_gwo_false",
    "NiaPy.C71_clpso_false",
    "NiaPy.LOA.C71_loa_false",
    "NiaPy.C71_searching",
    "NiaPy.MTS.exists_ready",
    "NiaPy.C71_mts_false",
    "NiaPy.C71_mts_empty_false",
    "NiaPy.MFO.C71_mfo",
    "NiaPy.FWA.C71_bbfwa",
    "NiaPy.FWA.C71_efwa",
    "NiaPy.FWA.C71_dynfwa",
    "NiaPy.FWA.C71_fwa_false",
    "NiaPy.FWA.C71_fwa_run_false",
    "NiaPy.Float64.zeroLaw"
   ],
   "note": "For the algorithms and parameters listed in Robust, for HC with max_evals, and for ABC and HC without it if their rejection loops end. False for population sizes the constructors accept: FPA with one, GWO with two, CLPSO with one; LOA with a pride without females. C71_searching: multiple trajectory search and its hybrids with differential evolution, those with mts_ls3v1 in exact arithmetic (its loop ends); C71_mts_false: MTS with four local searches raises. Not included: SHADE variants (C55), aging DE (C52), ASO (C70), RS (see C57). Fireworks: the bare-bones, enhanced and dynamic algorithms return (without rounding; the last two for objectives with finite values); the fireworks algorithm itself never completes an iteration with one firework in one dimension (also in double precision)."
  },
  {
   "property": "C72",
   "status": "partial",
   "theorems": [
    "NiaPy.MSHOA.C72_returned_false",
    "NiaPy.MSHOA.C72_bounds_false",
    "NiaPy.MSHOA.C72_round_trip",
    "NiaPy.MSHOA.verified"
   ],
   "note": "False of the code: the solution returned can be a normalised one that was never evaluated; without reflection solutions out of bounds are evaluated. True: the conversions are inverse to each other in exact arithmetic (lower != upper); with normalize_space=False everything holds (MSHOA.verified, hence C25 and C27)."
  },
  {
   "property": "C73",
   "status": "proved",
   "theorems": [
    "NiaPy.MSHOA.C73_types",
    "NiaPy.MSHOA.C73_types_later",
    "NiaPy.MSHOA.typeLaw_exact",
    "NiaPy.MSHOA.C73_strategies",
    "NiaPy.MSHOA.C73_reflect_inside",
    "NiaPy.MSHOA.C73_reflect_identity"
   ],
   "note": "C73_types needs that round(1 + 2 r) is 1, 2 or 3 for r in [0, 1), proved for exact arithmetic (typeLaw_exact); from the first iteration on the types are valid in every arithmetic."
  },
  {
   "property": "C74",
   "status": "proved",
   "theorems": [
    "NiaPy.MTS.C74_solution_fitness",
    "NiaPy.MTS.C74_population",
    "NiaPy.MTS.keeps_builtin",
    "NiaPy.MTS.C74_nan_false"
   ],
   "note": "C74_population for the searches without the in-place defects; for mts_ls3 and mts_ls1v1 the population can be misaligned (C28_mts_false, C28_mtsv1_false), the result cannot."
  },
  {
   "property": "C75",
   "status": "partial",
   "theorems": [
    "NiaPy.MTS.C75_best_false",
    "NiaPy.MTS.C75_enabled_partial"
   ],
   "note": "False of the code: the solutions with the lowest grades are enabled. True: how many are enabled, and that no other has a lower grade."
  },
  {
   "property": "C76",
   "status": "partial",
   "theorems": [
    "NiaPy.HDE.C76_hde_false",
    "NiaPy.HDE.C76_solution_partial",
    "NiaPy.HDE.verified",
    "NiaPy.HDE.verifiedMulti",
    "NiaPy.HDE.verifiedDyn",
    "NiaPy.HDE.verifiedDynMulti",
    "NiaPy.Uncoupled.verified"
   ],
   "note": "False of the code with mts_ls3 (in place moves). True for searches without that defect; everything not relating fitness and solution: C17, C18, C25, C26, C29-C31 (theorems ..._uncoupled)."
  },
  {
   "property": "C77",
   "status": "proved",
   "theorems": [
    "NiaPy.HDE.C77_bonus",
    "NiaPy.Alg.exec_alike"
   ],
   "note": "For every way to evolve and every reduction of the population, so for all eight classes of hde.py."
  },
  {
   "property": "C78",
   "status": "proved",
   "theorems": [
    "NiaPy.FWA.C78_solution",
    "NiaPy.FWA.C78_noisy_false",
    "NiaPy.FWA.verifiedD"
   ],
   "note": "Both halves: for deterministic objectives without NaN the pair is right (C78_solution); for noisy objectives a run is given whose pair never occurred (C78_noisy_false)."
  },
  {
   "property": "C79",
   "status": "proved",
   "theorems": [
    "NiaPy.CRO.C79_iterations",
    "NiaPy.CRO.C79_raises",
    "NiaPy.CRO.verified"
   ],
   "note": "A defect of the code: np.delete without axis. C79_raises is a concrete run that raises."
  },
  {
   "property": "C80",
   "status": "partial",
   "theorems": [
    "NiaPy.LOA.C80_loa_partial",
    "NiaPy.LOA.C80_nomads_false",
    "NiaPy.LOA.shareLaw_exact",
    "NiaPy.LOA.C80_cubs",
    "NiaPy.LOA.C80_previous"
   ],
   "note": "Proved under the conditions stated and for rounding that gives a nonnegative share of migrating females (proved for exact arithmetic); false without nomads (C80_nomads_false)."
  },
  {
   "property": "C81",
   "status": "proved",
   "theorems": [
    "NiaPy.ASO.C81_personal",
    "NiaPy.ASO.C81_others",
    "NiaPy.ASO.C81_noise",
    "NiaPy.ASO.C81_last"
   ],
   "note": ""
  },
  {
   "property": "C82",
   "status": "partial",
   "theorems": [
    "NiaPy.Bench.C82_schwefel",
    "NiaPy.Bench.C82_schwefel_attained",
    "NiaPy.Bench.C82_modified_partial",
    "NiaPy.Bench.C82_modified_false"
   ],
   "note": "Proved for Schwefel. False for ModifiedSchwefel: the documented point is outside the box and its value is above 418 per component; the code has its minimum (within 0.002 per component) at the origin."
  },
  {
   "property": "C83",
   "status": "partial",
   "theorems": [
    "NiaPy.Params.C83_partial",
    "NiaPy.Params.C83_raises_false",
    "NiaPy.Params.C83_forgets_false"
   ],
   "note": "Complete classification of the 80 classes: holds for 55, false for 25. 18 classes raise TypeError because an argument is passed twice, 7 reset a parameter to its default."
  },
  {
   "property": "C84",
   "status": "partial",
   "theorems": [
    "NiaPy.Params.C84_partial",
    "NiaPy.Params.C84_defaults_false",
    "NiaPy.Params.C84_ignored_false",
    "NiaPy.Params.C84_raises_false"
   ],
   "note": "Complete classification of the 80 classes: holds for 59, false for 21 (different defaults, arguments ignored, or TypeError)."
  },
  {
   "property": "C85",
   "status": "partial",
   "theorems": [
    "NiaPy.Params.C85_partial",
    "NiaPy.Params.C85_missing_false"
   ],
   "note": "False of 9 classes (12 keywords): get_parameters has no such key (C85_missing_false). C85_partial: exactly these; all other keywords of all 80 classes are shown."
  },
  {
   "property": "C86",
   "status": "partial",
   "theorems": [
    "NiaPy.Float64.C86_sampling_partial",
    "NiaPy.Float64.affineLaw",
    "NiaPy.Float64.C09_wang_double",
    "NiaPy.Float64.C86_cpso_false",
    "NiaPy.Float64.C86_ovcpso_false",
    "NiaPy.Float64.C86_clonalg_false",
    "NiaPy.Float64.C40_double_false",
    "NiaPy.Float64.C09_reflect_double_false"
   ],
   "note": "Binary64 with rounding to nearest even, gradual underflow and overflow (Float64.float64). Proved for the sampling algorithms and for limit, limit_inverse, rand (any arithmetic, C09) and wang; false of CPSO, OVCPSO, CLONALG (concrete runs) and of reflect."
  },
  {
   "property": "C87",
   "status": "partial",
   "theorems": [
    "NiaPy.ArgParser.C87_partial",
    "NiaPy.ArgParser.C87_problem_partial",
    "NiaPy.ArgParser.C87_algorithm_false",
    "NiaPy.ArgParser.C87_default_problem_false",
    "NiaPy.ArgParser.C87_problem_false"
   ],
   "note": "Acceptance, last-wins, conversion and defaults hold. False of the names: the default algorithm jDE is not a name get_algorithm knows, the default problem is the abstract class Problem (documented: Ackley) which get_problem refuses, and 13 of the accepted problem names are refused by get_problem. The splitting of argv into option occurrences by argparse is not modelled."
  },
  {
   "property": "C88",
   "status": "partial",
   "theorems": [
    "NiaPy.Bench.Code.C88_partial",
    "NiaPy.Bench.Code.C88_sphere",
    "NiaPy.Bench.Code.C88_sphere2",
    "NiaPy.Bench.Code.C88_sphere3",
    "NiaPy.Bench.Code.C88_sumSquares",
    "NiaPy.Bench.Code.C88_chungReynolds",
    "NiaPy.Bench.Code.C88_schumerSteiglitz",
    "NiaPy.Bench.Code.C88_bentCigar",
    "NiaPy.Bench.Code.C88_zakharov",
    "NiaPy.Bench.Code.C88_schwefel221",
    "NiaPy.Bench.Code.C88_schwefel222",
    "NiaPy.Bench.Code.C88_step",
    "NiaPy.Bench.Code.C88_step2",
    "NiaPy.Bench.Code.C88_step3",
    "NiaPy.Bench.Code.C88_stepint",
    "NiaPy.Bench.Code.C88_rosenbrock",
    "NiaPy.Bench.Code.C88_qing",
    "NiaPy.Bench.Code.C88_quintic",
    "NiaPy.Bench.Code.C88_perm",
    "NiaPy.Bench.Code.C88_dixonPrice",
    "NiaPy.Bench.Code.C88_dixonPrice_one",
    "NiaPy.Bench.Code.C88_trid",
    "NiaPy.Bench.Code.C88_styblinskiTang",
    "NiaPy.Bench.Code.C88_discus",
    "NiaPy.Bench.Code.C88_happyCat",
    "NiaPy.Bench.Code.C88_hgbat",
    "NiaPy.Bench.Code.C88_katsuura",
    "NiaPy.Bench.Code.C88_ridge",
    "NiaPy.Bench.Code.C88_elliptic",
    "NiaPy.Bench.Code.C88_elliptic_false",
    "NiaPy.Bench.Code.C88_powell",
    "NiaPy.Bench.Code.C88_powell_false",
    "NiaPy.Bench.Code.C88_powell_small",
    "NiaPy.Bench.Code.C88_ackley",
    "NiaPy.Bench.Code.C88_alpine1",
    "NiaPy.Bench.Code.C88_alpine2",
    "NiaPy.Bench.Code.C88_csendes",
    "NiaPy.Bench.Code.C88_griewank",
    "NiaPy.Bench.Code.C88_expandedGriewank",
    "NiaPy.Bench.Code.C88_levy",
    "NiaPy.Bench.Code.C88_michalewicz",
    "NiaPy.Bench.Code.C88_pinter",
    "NiaPy.Bench.Code.C88_rastrigin",
    "NiaPy.Bench.Code.C88_salomon",
    "NiaPy.Bench.Code.C88_schafferN2",
    "NiaPy.Bench.Code.C88_schafferN4",
    "NiaPy.Bench.Code.C88_expandedSchaffer",
    "NiaPy.Bench.Code.C88_weierstrass",
    "NiaPy.Bench.Code.C88_whitley",
    "NiaPy.Bench.Code.C88_cosineMixture",
    "NiaPy.Bench.Code.C88_schwefel",
    "NiaPy.Bench.Code.C88_modifiedSchwefel"
   ],
   "note": "Every _evaluate transcribed with a model of the NumPy array operations (broadcasting, slices, reductions; an undefined real operation gives no number), and proved to give the function of the other benchmark properties, for every dimension. False for Elliptic in dimension 1 (0/0) and Powell in dimensions above 8 not divisible by 4 (ValueError; 5 to 7 broadcast slices of length 1 and are not claimed); Powell below dimension 4 is constantly 0. Real arithmetic: overflow of doubles is not modelled."
  },
  {
   "property": "C89",
   "status": "partial",
   "theorems": [
    "NiaPy.Bench.Latex.C89_sphere",
    "NiaPy.Bench.Latex.C89_sphere2",
    "NiaPy.Bench.Latex.C89_sumSquares",
    "NiaPy.Bench.Latex.C89_chungReynolds",
    "NiaPy.Bench.Latex.C89_schumerSteiglitz",
    "NiaPy.Bench.Latex.C89_bentCigar",
    "NiaPy.Bench.Latex.C89_zakharov",
    "NiaPy.Bench.Latex.C89_schwefel221",
    "NiaPy.Bench.Latex.C89_schwefel222",
    "NiaPy.Bench.Latex.C89_step",
    "NiaPy.Bench.Latex.C89_step2",
    "NiaPy.Bench.Latex.C89_step3",
    "NiaPy.Bench.Latex.C89_rosenbrock",
    "NiaPy.Bench.Latex.C89_qing",
    "NiaPy.Bench.Latex.C89_quintic",
    "NiaPy.Bench.Latex.C89_trid",
    "NiaPy.Bench.Latex.C89_styblinskiTang",
    "NiaPy.Bench.Latex.C89_hgbat",
    "NiaPy.Bench.Latex.C89_ridge",
    "NiaPy.Bench.Latex.C89_sphere3",
    "NiaPy.Bench.Latex.C89_elliptic",
    "NiaPy.Bench.Latex.C89_powell",
    "NiaPy.Bench.Latex.C89_ackley",
    "NiaPy.Bench.Latex.C89_alpine2",
    "NiaPy.Bench.Latex.C89_csendes",
    "NiaPy.Bench.Latex.C89_griewank",
    "NiaPy.Bench.Latex.C89_michalewicz",
    "NiaPy.Bench.Latex.C89_pinter",
    "NiaPy.Bench.Latex.C89_rastrigin",
    "NiaPy.Bench.Latex.C89_salomon",
    "NiaPy.Bench.Latex.C89_schafferN2",
    "NiaPy.Bench.Latex.C89_schafferN4",
    "NiaPy.Bench.Latex.C89_weierstrass",
    "NiaPy.Bench.Latex.C89_whitley",
    "NiaPy.Bench.Latex.C89_cosineMixture",
    "NiaPy.Bench.Latex.C89_expandedSchaffer_partial",
    "NiaPy.Bench.Latex.C89_alpine1_false",
    "NiaPy.Bench.Latex.C89_discus_false",
    "NiaPy.Bench.Latex.C89_dixonPrice_false",
    "NiaPy.Bench.Latex.C89_expandedGriewank_false",
    "NiaPy.Bench.Latex.C89_happyCat_false",
    "NiaPy.Bench.Latex.C89_katsuura_false",
    "NiaPy.Bench.Latex.C89_levy_false",
    "NiaPy.Bench.Latex.C89_perm_false",
    "NiaPy.Bench.Latex.C89_schwefel_false",
    "NiaPy.Bench.Latex.C89_modifiedSchwefel_false",
    "NiaPy.Bench.Latex.C89_stepint_false",
    "NiaPy.Bench.Latex.C89_expandedSchaffer_false"
   ],
   "note": "The formulas are transcribed with sums over 1..D and compared with the transcription of the array code (C88). 35 classes agree (Csendes where components are 0: the term is 0; Pinter with x_0 = x_D and x_(D+1) = x_1, which the formula leaves open). 12 do not, each with a point of the default box: Alpine1, Discus, DixonPrice, ExpandedGriewankPlusRosenbrock, HappyCat, Katsuura, Levy, Perm, Schwefel (constant with four decimals), ModifiedSchwefel, Stepint, ExpandedSchaffer (exponent at the fraction; agrees with the exponent at the denominator)."
  },
  {
   "property": "C90",
   "status": "partial",
   "theorems": [
    "NiaPy.C90_any",
    "NiaPy.C90_bad_run_partial",
    "NiaPy.BFO.C90_bad_run_false",
    "NiaPy.BFO.C90_bfo",
    "NiaPy.BFO.C90_bfo_fresh",
    "NiaPy.BFO.C90_bfo_false"
   ],
   "note": "C90_any: bad_run says whether any run so far returned (None, None), so a stale True is possible (C90_bad_run_false); without an earlier failure it is right (C90_bad_run_partial). Bacterial foraging: the counters after a series of completed runs as a function of the iterations (C90_bfo, C90_bfo_fresh), and a second run that differs from the first (C90_bfo_false). The other algorithms keep no state between runs in the model (their init takes none); runs aborted by an exception are not followed for the counters."
  },
  {
   "property": "C91",
   "status": "partial",
   "theorems": [
    "NiaPy.ES.C91_ml_false",
    "NiaPy.ES.C91_mpl_partial",
    "NiaPy.ES.C91_1p1",
    "NiaPy.ES.C91_1p1_rule",
    "NiaPy.ES.C91_mpl_rule_partial",
    "NiaPy.ES.C91_1p1_sizes",
    "NiaPy.ES.C91_mpl_sizes",
    "NiaPy.ES.C91_mpl_rule"
   ],
   "note": "False of the code for ES(mu,lambda), for every run. For ES(1+1) and ES(mu+1): the step size is changed in every k-th iteration only, by the 1/5 rule applied to the number of improvements of the parent in the k iterations before. For ES(mu+lambda), in runs whose individuals contain no NaN: the step sizes kept are changed in every k-th iteration only, by the 1/5 rule applied to the number of individuals that arrived in the k iterations before (with NaN: at most every k-th iteration, all by the same factor). All step sizes of all runs are products of c_r and c_a."
  },
  {
   "property": "C92",
   "status": "partial",
   "theorems": [
    "NiaPy.PSO.C92_ovcpso",
    "NiaPy.PSO.C92_ovcpso_false",
    "NiaPy.PSO.C92_clpso_false",
    "NiaPy.PSO.C92_clpso_default_false",
    "NiaPy.PSO.C92_clpso_none_false",
    "NiaPy.GWO.C92_gwo",
    "NiaPy.GWO.C92_gwo_false",
    "NiaPy.HHO.C92_hho",
    "NiaPy.HHO.C92_hho_false",
    "NiaPy.KH.C92_kh",
    "NiaPy.KH.C92_kh_false",
    "NiaPy.GSA.C92_gsa",
    "NiaPy.MFO.C92_mfo",
    "NiaPy.MFO.C92_mfo_false",
    "NiaPy.HS.C92_hsv1_false",
    "NiaPy.FSS.C92_fss_partial",
    "NiaPy.FSS.C92_fss_between_partial",
    "NiaPy.FSS.C92_fss_false",
    "NiaPy.FSS.C92_fss_first",
    "NiaPy.FA.C92_fa",
    "NiaPy.FA.C92_fa_exact",
    "NiaPy.FWA.C92_efwa",
    "NiaPy.FWA.C92_efwa_false"
   ],
   "note": "With the limit they use: holds for OVCPSO, grey wolf, Harris hawks, krill herd, gravitational search, moth flame, firefly (in runs); false of CLPSO (rises, below both weights), HarmonySearchV1 (never above bw_min), fish school search (steps not scaled to the box after the first iteration; the rest of the schedule holds in runs). Without that limit the schedules are constant (the _false theorems). Except for fish school search and firefly the theorems are about the formula as a function of what the task shows; without rounding. EFWA: the schedule holds with max_evals; without it amplitude_init and amplitude_final have no effect (runs are equal)."
  },
  {
   "property": "C93",
   "status": "partial",
   "theorems": [
    "NiaPy.FWA.C93_sparks",
    "NiaPy.FWA.C93_amplitudes",
    "NiaPy.ABC.C93_abc_partial",
    "NiaPy.ABC.C93_abc_false",
    "NiaPy.GA.C93_tournament",
    "NiaPy.GA.C93_roulette_false",
    "NiaPy.CSO.C93_cso",
    "NiaPy.GSA.C93_gsa_partial",
    "NiaPy.CLONALG.C93_clonalg_partial",
    "NiaPy.CLONALG.C93_clonalg_false",
    "NiaPy.CLONALG.C93_clonalg_pop_false"
   ],
   "note": "Without rounding. Holds for fireworks, cat swarm copies and tournaments, for gravitational search unless all agents have the same value, for the artificial bee colony if all values exceed -0.01, for clonal selection as far as the mutation rate is monotone. False: negative values reverse the preference of the bee colony and stop all mutation in clonal selection; roulette selection always takes the last individual."
  },
  {
   "property": "C94",
   "status": "partial",
   "theorems": [
    "NiaPy.ABC.C94_abc_small_false",
    "NiaPy.ABC.C94_abc_run_false",
    "NiaPy.ABC.C94_abc_inf_false",
    "NiaPy.ABC.InfProb.exact"
   ],
   "note": "False of the code: with one food source, or if all values are inf, no iteration returns, whatever the random numbers. Missing: that iterations end otherwise (with probability one)."
  },
  {
   "property": "C95",
   "status": "partial",
   "theorems": [
    "NiaPy.GSA.C95_gsa_partial",
    "NiaPy.GSA.C95_gsa_false",
    "NiaPy.GSA.C95_gsa_stays_false",
    "NiaPy.GSA.C95_gsa_run_false",
    "NiaPy.GSA.NanLaw.exact"
   ],
   "note": "Without rounding: true unless all agents have the same value; then all velocities become NaN and stay NaN."
  },
  {
   "property": "C96",
   "status": "proved",
   "theorems": [
    "NiaPy.C96",
    "NiaPy.Comparing.ordinal",
    "NiaPy.GSA.C96_false",
    "NiaPy.FSS.C96_false",
    "NiaPy.MTS.C96_false",
    "NiaPy.ABC.C96_false",
    "NiaPy.CLONALG.C96_false",
    "NiaPy.SA.C96_false",
    "NiaPy.Ex.Diverges.not"
   ],
   "note": "C96: the algorithms listed in Comparing (42 of them, with any parameters), for every arithmetic and every strictly increasing function that keeps inf and NaN. The failures are concrete pairs of runs (GSA, FSS, MTS with the default searches, ABC, CLONALG, SA). The statement says nothing of GA with roulette selection, BFO, CSO, GSO, CA, KH, SHADE, FWA, ASO, LOA, aging DE."
  },
  {
   "property": "C97",
   "status": "proved",
   "theorems": [
    "NiaPy.C97",
    "NiaPy.C97_best",
    "NiaPy.C97_result",
    "NiaPy.Steady.deaf",
    "NiaPy.HHO.C97_false",
    "NiaPy.MFO.C97_false",
    "NiaPy.CA.C97_false",
    "NiaPy.FSS.C97_false",
    "NiaPy.PSO.C97_ovcpso_false",
    "NiaPy.GWO.C97_false"
   ],
   "note": "For the algorithms listed in Steady (all that are modelled; the flags say which limit an algorithm reads). The failures when a limit that is read changes are concrete pairs of runs; none is given for CLPSO, HS version 1, KH, dynNpDE, EFWA, L-SHADE, SA with linear cooling and random search."
  },
  {
   "property": "C98",
   "status": "proved",
   "theorems": [
    "NiaPy.C98_affine",
    "NiaPy.C98_translated",
    "NiaPy.C98_scaled",
    "NiaPy.Affine.carries",
    "NiaPy.Translated.carries",
    "NiaPy.Scaled.carries",
    "NiaPy.Carries.exec",
    "NiaPy.recharted",
    "NiaPy.Repair.limit_move",
    "NiaPy.Repair.limitInverse_move",
    "NiaPy.Repair.wang_move",
    "NiaPy.Repair.rand_move",
    "NiaPy.Repair.C98_reflect_false",
    "NiaPy.GWO.C98_gwo_false",
    "NiaPy.HHO.C98_hho_false",
    "NiaPy.MKE.C98_mke1_false",
    "NiaPy.MKE.C98_mke3_false",
    "NiaPy.PSO.C98_mutated_false",
    "NiaPy.HC.C98_hc_units_false",
    "NiaPy.ES.C98_es1_units_false",
    "NiaPy.GSA.C98_gsa_units_false",
    "NiaPy.FA.C98_fa_units_false"
   ],
   "note": "For the algorithms listed in Affine, Translated and Scaled. The arithmetic is exact (class ExactOps); with rounding the two runs agree only approximately at first. The failures are concrete pairs of runs. Algorithms in none of the lists (for instance SHADE, FSS, KH, MTS) are neither proved nor refuted."
  },
  {
   "property": "C99",
   "status": "proved",
   "theorems": [
    "NiaPy.DE.C99_de",
    "NiaPy.DE.C99_multi",
    "NiaPy.DE.C99_dyn",
    "NiaPy.DE.C99_dyn_multi",
    "NiaPy.JDE.C99_jde",
    "NiaPy.JDE.C99_jde_multi",
    "NiaPy.CS.C99_cs",
    "NiaPy.FPA.C99_fpa",
    "NiaPy.MFO.C99_mfo",
    "NiaPy.MKE.C99_mke2",
    "NiaPy.PSO.C99_pso",
    "NiaPy.NM.C99_nm",
    "NiaPy.centre_exact",
    "NiaPy.centre_float64",
    "NiaPy.PSO.meanLaw_exact",
    "NiaPy.NM.centroid_exact",
    "NiaPy.Collapsed.C99_gwo_false",
    "NiaPy.Collapsed.C99_fa_false",
    "NiaPy.Collapsed.C99_abc_false",
    "NiaPy.Collapsed.C99_ba_false",
    "NiaPy.Collapsed.C99_hs_false",
    "NiaPy.Collapsed.C99_mke1_false",
    "NiaPy.Collapsed.C99_mcpso_false",
    "NiaPy.SHADE.C99_shade",
    "NiaPy.Collapsed.C99_shade_archive_false"
   ],
   "note": "Stuck (in Collapse) is the claim about the rest of the run. The laws of arithmetic used (Centre: p - p = 0, p + 0 = p, c * 0 = 0, ...) are proved of exact arithmetic and of IEEE double precision; the law of the mean, needed for center PSO and Nelder-Mead only, of exact arithmetic."
  },
  {
   "property": "C100",
   "status": "proved",
   "theorems": [
    "NiaPy.C100_same",
    "NiaPy.C100_causal",
    "NiaPy.C100_unseen",
    "NiaPy.C100_budget",
    "NiaPy.C100_no_guarantee",
    "NiaPy.run_withObj",
    "NiaPy.Box.infinite"
   ],
   "note": "For every program of the model that uses the objective function through Task.eval only, which all algorithms of the library do."
  },
  {
   "property": "C101",
   "status": "proved",
   "theorems": [
    "NiaPy.RS.C101_rs",
    "NiaPy.CLONALG.C101_clonalg",
    "NiaPy.NM.C101_nm",
    "NiaPy.PSO.C101_clpso",
    "NiaPy.PSO.C101_clpso_zero_false",
    "NiaPy.C101_pso_false"
   ],
   "note": "Env.withRepair replaces the repair function and nothing else; runs are compared completely (result or exception, evaluations, events, random state)."
  },
  {
   "property": "C102",
   "status": "proved",
   "theorems": [
    "NiaPy.PSO.C102_clpso",
    "NiaPy.PSO.C102_best",
    "NiaPy.PSO.C102_zero_false"
   ],
   "note": "CPar.Agree: same w0, w1, c, velocity bounds and velocity repair; m, c1, c2 and w arbitrary."
  },
  {
   "property": "C103",
   "status": "partial",
   "theorems": [
    "NiaPy.C103_size",
    "NiaPy.BFO.C103_bfo",
    "NiaPy.BFO.C103_bfo_after",
    "NiaPy.BFO.C103_bfo_endless",
    "NiaPy.BFO.C103_bfo_false",
    "NiaPy.FOA.C103_foa_false",
    "NiaPy.FOA.C103_foa_partial",
    "NiaPy.DE.C103_aging_false"
   ],
   "note": "Refuted for bacterial foraging with an odd population size (C103_bfo_after says what it has instead) and, by design, for FOA (C103_foa_partial gives a bound) and ageing DE. In models with Fin N-indexed state (most array-based algorithms) the size is part of the type of the state, so for these the theorem only records the modelling; the substance is in the algorithms with lists of individuals. Dynamic DE, L-SHADE and the lions are in C51, C35 and C80; the coral reef is not covered."
  },
  {
   "property": "C104",
   "status": "proved",
   "theorems": [
    "NiaPy.RS.C104_rs",
    "NiaPy.GSO.C104_gso",
    "NiaPy.SA.C104_sa",
    "NiaPy.SA.C104_sa_linear",
    "NiaPy.SA.C104_sa_delta",
    "NiaPy.PSO.C104_pso_false"
   ],
   "note": "For GSO and SA the theorem documents a defect (C49, C37). C104_sa_linear and C104_sa_delta are in exact arithmetic with any exponential function that is at least 1 for arguments >= 0; C104_sa only needs that the temperature is positive in the iterations that begin. Random search: the depth of the loop that avoids repeated points is a parameter (outOfFuel on both sides)."
  },
  {
   "property": "C105",
   "status": "partial",
   "theorems": [
    "NiaPy.FSS.C105_fss",
    "NiaPy.FSS.C105_initial_false",
    "NiaPy.GSO.C105_gso"
   ],
   "note": "Refuted for the first population of fish if w_scale / 2 < min_w. A weight may be NaN if the objective is (it is then neither below nor above)."
  },
  {
   "property": "C106",
   "status": "partial",
   "theorems": [
    "NiaPy.Matrix.C106_vector",
    "NiaPy.Matrix.C106_call",
    "NiaPy.Matrix.C106_matrix",
    "NiaPy.CS.C106_cs_iteration_false",
    "NiaPy.CS.C106_cs_false",
    "NiaPy.JDE.C106_jde_false",
    "NiaPy.SHADE.C106_shade_false"
   ],
   "note": "Refuted for CuckooSearch with limit_inverse, wang, rand and reflect, and for jDE and the SHADE variants with rand. On vectors, with None or a generator (all other calls), the functions written with the array operations of the code agree with the models used everywhere else."
  },
  {
   "property": "C107",
   "status": "partial",
   "theorems": [
    "NiaPy.C107_get_best_partial",
    "NiaPy.C107_get_best_false",
    "NiaPy.C107_start_false",
    "NiaPy.C107_start_partial",
    "NiaPy.SA.C107_sa_false",
    "NiaPy.SA.C107_sa_partial",
    "NiaPy.HC.C107_hc_false",
    "NiaPy.HC.C107_hc_partial",
    "NiaPy.RS.C107_rs_false",
    "NiaPy.RS.C107_rs_partial",
    "NiaPy.ES.C107_es_false",
    "NiaPy.ES.C107_es_partial",
    "NiaPy.HS.C107_hs_false",
    "NiaPy.HS.C107_hs_partial",
    "NiaPy.GWO.C107_gwo_false",
    "NiaPy.GWO.C107_gwo_partial",
    "NiaPy.GA.C107_ga_false",
    "NiaPy.GA.C107_ga_partial",
    "NiaPy.FSS.C107_fss_false",
    "NiaPy.FSS.C107_fss_partial"
   ],
   "note": "Refuted for np.float32, np.float16 and np.longdouble in nine algorithms; for all other types these algorithms behave exactly as the models used everywhere else. The other algorithms call get_best with arrays only or compare values themselves."
  },
  {
   "property": "C108",
   "status": "partial",
   "theorems": [
    "NiaPy.C108_feasible_partial",
    "NiaPy.C108_best",
    "NiaPy.C108_solution",
    "NiaPy.C108_callbacks",
    "NiaPy.C108_terminates",
    "NiaPy.C108_seeded",
    "NiaPy.TakesArrays.customized",
    "NiaPy.TakesIndividuals.customized",
    "NiaPy.C108_unrepaired_false",
    "NiaPy.C108_example_false"
   ],
   "note": "Proved for initialization functions that generate points within the bounds without evaluating anything and then evaluate them row by row; refuted for functions that generate points outside the bounds. That some algorithms ignore the function or raise TypeError is read off the source, not proved. Functions that return a population of another size than asked for are not modelled."
  },
  {
   "property": "C109",
   "status": "partial",
   "theorems": [
    "NiaPy.C109_feasible",
    "NiaPy.C109_best",
    "NiaPy.C109_solution",
    "NiaPy.C109_callbacks",
    "NiaPy.C109_terminates",
    "NiaPy.C109_seeded",
    "NiaPy.Supplied.verified",
    "NiaPy.GA.algU_eq",
    "NiaPy.SA.algU_eq",
    "NiaPy.CRO.algU_eq",
    "NiaPy.MTS.algU_eq",
    "NiaPy.MTS.C109_mts",
    "NiaPy.GA.C109_ga_ignored_false",
    "NiaPy.C109_cro_unrepaired_false",
    "NiaPy.MTS.C109_mts_forgetful_false"
   ],
   "note": "Proved for all functions that evaluate nothing (those of coral reefs optimization: followed by the evaluation of the points they return; for the bounds, if they return points within them). Refuted: coral reefs optimization evaluates what its functions return unrepaired; what selection and crossover of the genetic algorithm return is ignored, for all functions and runs; jDE repairs without the seeded generator (C31). Local searches of multiple trajectory search evaluate points themselves: proved for all that keep to the contract of the library (report the best of what they evaluate), refuted for one that does not."
  },
  {
   "property": "C110",
   "status": "partial",
   "theorems": [
    "NiaPy.Bench.C110_ackley",
    "NiaPy.Bench.C110_alpine1",
    "NiaPy.Bench.C110_bentCigar",
    "NiaPy.Bench.C110_chungReynolds",
    "NiaPy.Bench.C110_csendes",
    "NiaPy.Bench.C110_elliptic",
    "NiaPy.Bench.C110_griewank",
    "NiaPy.Bench.C110_hgbat",
    "NiaPy.Bench.C110_pinter",
    "NiaPy.Bench.C110_powell",
    "NiaPy.Bench.C110_quintic",
    "NiaPy.Bench.C110_rastrigin",
    "NiaPy.Bench.C110_ridge",
    "NiaPy.Bench.C110_rosenbrock",
    "NiaPy.Bench.C110_salomon",
    "NiaPy.Bench.C110_schafferN2",
    "NiaPy.Bench.C110_expandedSchaffer",
    "NiaPy.Bench.C110_schumerSteiglitz",
    "NiaPy.Bench.C110_schwefel221",
    "NiaPy.Bench.C110_schwefel222",
    "NiaPy.Bench.C110_sphere",
    "NiaPy.Bench.C110_sphere2",
    "NiaPy.Bench.C110_sphere3",
    "NiaPy.Bench.C110_step",
    "NiaPy.Bench.C110_step2",
    "NiaPy.Bench.C110_step3",
    "NiaPy.Bench.C110_sumSquares",
    "NiaPy.Bench.C110_weierstrass",
    "NiaPy.Bench.C110_whitley",
    "NiaPy.Bench.C110_zakharov",
    "NiaPy.Bench.C110_dixonPrice",
    "NiaPy.Bench.C110_perm",
    "NiaPy.Bench.C110_trid",
    "NiaPy.Bench.C110_qing_partial",
    "NiaPy.Bench.C110_qing_false",
    "NiaPy.Bench.C110_modifiedSchwefel_false",
    "NiaPy.Bench.C110_stepint_partial",
    "NiaPy.Bench.C110_styblinskiTang_partial",
    "NiaPy.Bench.C110_schwefel_partial",
    "NiaPy.Bench.C110_nonempty"
   ],
   "note": "Refuted for Qing beyond dimension 250000 (where no point of the box has the documented value) and for ModifiedSchwefel (documented minimiser outside of the box in every dimension). Stepint: with the true value instead of the documented one; StyblinskiTang and Schwefel: up to the digits of the documentation. Over the real numbers."
  },
  {
   "property": "C111",
   "status": "proved",
   "theorems": [
    "NiaPy.CSO.C111_velocities",
    "NiaPy.CSO.C111_copy",
    "NiaPy.CSO.C111_share",
    "NiaPy.BA.C111_loudness",
    "NiaPy.BA.C111_velocity",
    "NiaPy.CRO.C111_depredation"
   ],
   "note": "A velocity may have NaN components. NaN fitness values count as the worst ones in C111_depredation, as in np.argsort."
  },
  {
   "property": "C112",
   "status": "partial",
   "theorems": [
    "NiaPy.DE.C50_trial",
    "NiaPy.JDE.C112_tao",
    "NiaPy.BAT.C112_tao",
    "NiaPy.BAT.C112_loudness",
    "NiaPy.BAT.C112_pulse",
    "NiaPy.BFO.C112_elimination",
    "NiaPy.KH.C112_crossover",
    "NiaPy.GA.C112_mutCoord",
    "NiaPy.GA.C112_mutation",
    "NiaPy.CSO.C112_mixture",
    "NiaPy.MKE.C112_kings",
    "NiaPy.PSO.C112_p0",
    "NiaPy.LOA.C112_mutation",
    "NiaPy.LOA.C112_mating",
    "NiaPy.CA.C112_visibility",
    "NiaPy.DE.C112_omega",
    "NiaPy.BA.C112_pulse",
    "NiaPy.FPA.C112_switch",
    "NiaPy.HS.C112_note",
    "NiaPy.BA.C112_loudness_reversed",
    "NiaPy.CRO.C112_brooding_reversed",
    "NiaPy.CRO.C112_settling_reversed",
    "NiaPy.CRO.C112_crossover_reversed",
    "NiaPy.CLONALG.C112_mutation_reversed",
    "NiaPy.CS.C112_abandon_reversed",
    "NiaPy.KH.C112_mutate_reversed",
    "NiaPy.KH.C112_mutation_reversed"
   ],
   "note": "proved for the rates that work as documented; refuted universally (theorems _reversed) for the loudness of BatAlgorithm, pa of cuckoo search, the rates of coral reefs, the mutation rate of CLONALG and mutation_rate of krill herd, whose tests are the wrong way round"
  },
  {
   "property": "C113",
   "status": "partial",
   "theorems": [
    "NiaPy.ABC.C113_candidate",
    "NiaPy.BEA.C113_beeDance",
    "NiaPy.FOA.C113_localSeed",
    "NiaPy.FOA.C113_localSeed_false",
    "NiaPy.FOA.C113_globalSeed",
    "NiaPy.FWA.C113_explode",
    "NiaPy.FWA.C113_bare",
    "NiaPy.FSS.C113_individual",
    "NiaPy.SA.C113_step",
    "NiaPy.HS.C113_note",
    "NiaPy.GWO.C113_approach",
    "NiaPy.GWO.C113_meet",
    "NiaPy.FA.C113_move",
    "NiaPy.MBO.C113_migrate"
   ],
   "note": "proved in exact arithmetic for finite coordinates; floating-point rounding may exceed the distances by the rounding error. That local seeding of the forest can move is refuted where the upper bound is 0 (C113_localSeed_false)"
  },
  {
   "property": "C114",
   "status": "partial",
   "theorems": [
    "NiaPy.PSO.C114_velocity",
    "NiaPy.PSO.C114_unified",
    "NiaPy.PSO.C114_hull",
    "NiaPy.PSO.C114_learning",
    "NiaPy.MKE.C114_particle",
    "NiaPy.MFO.C114_flame",
    "NiaPy.CS.C114_found",
    "NiaPy.FPA.C114_local",
    "NiaPy.HHO.C114_besiege",
    "NiaPy.FSS.C114_instinctive",
    "NiaPy.FSS.C114_volitive",
    "NiaPy.GSO.C114_move",
    "NiaPy.GSA.C114_attraction"
   ],
   "note": "proved in exact arithmetic for finite coordinates, before repair; rounding errors of floating-point numbers are left out. For moths and gravity the elementary functions are supposed to be finite, the square root of a non-negative number non-negative"
  },
  {
   "property": "C115",
   "status": "partial",
   "theorems": [
    "NiaPy.LOA.C115_cubs",
    "NiaPy.CRO.C115_crossover",
    "NiaPy.CRO.C115_first_false",
    "NiaPy.BFO.C115_reproduce",
    "NiaPy.NM.C115_simplex",
    "NiaPy.NM.C115_centroid",
    "NiaPy.MBO.C115_adjust",
    "NiaPy.KH.C115_food",
    "NiaPy.KH.C115_food_false",
    "NiaPy.KH.C115_crossover"
   ],
   "note": "means (cubs, centroid, food) in exact arithmetic and for finite coordinates. False of the first spawner, which is crossed with itself, and of the food of krill when objective values have both signs"
  },
  {
   "property": "C116",
   "status": "partial",
   "theorems": [
    "NiaPy.C116_elitist",
    "NiaPy.BEA.C116_bees",
    "NiaPy.MBO.C116_butterflies",
    "NiaPy.FOA.C116_trees",
    "NiaPy.FWA.C116_fireworks",
    "NiaPy.FWA.C116_dynamic",
    "NiaPy.CRO.C116_corals",
    "NiaPy.GA.C116_ga_false",
    "NiaPy.FOA.C116_lifetime_false"
   ],
   "note": "butterflies, trees and fireworks are evaluated again, and evaluations past the budget give inf, so what is proved for them is that they stay (butterflies) or are matched (trees, fireworks), with possible values of the objective. Refuted for the genetic algorithm and for a forest with lifetime 0. L-SHADE is in C35"
  },
  {
   "property": "C117",
   "status": "partial",
   "theorems": [
    "NiaPy.HC.C117_ends",
    "NiaPy.HC.C117_returns",
    "NiaPy.HC.C117_ends_false",
    "NiaPy.HC.C117_next_partial",
    "NiaPy.HC.C117_forgets",
    "NiaPy.HC.C117_climbs_false"
   ],
   "note": "Ending is proved for runs with max_evals and refuted without it, by one generator and objective for which no number of rounds is enough. Climbing is refuted; C117_next_partial says what an iteration can return."
  },
  {
   "property": "C118",
   "status": "proved",
   "theorems": [
    "NiaPy.ES.C118_plus",
    "NiaPy.ES.C118_comma",
    "NiaPy.ES.C118_comma_all",
    "NiaPy.CLONALG.C118_clones",
    "NiaPy.BEA.C118_sorted",
    "NiaPy.BEA.C118_patch"
   ],
   "note": "The sizes of the offspring and the fact that their values come from the objective are part of the statements. C118_patch is for exact arithmetic (class ExactOps)."
  },
  {
   "property": "C119",
   "status": "partial",
   "theorems": [
    "NiaPy.PSO.C119_within",
    "NiaPy.PSO.C119_within_default",
    "NiaPy.PSO.C119_within_learning",
    "NiaPy.PSO.C119_ovc_false",
    "NiaPy.PSO.C119_ovc_partial",
    "NiaPy.SHADE.C119_scale",
    "NiaPy.SHADE.C119_lehmer",
    "NiaPy.SHADE.C119_crossover",
    "NiaPy.SHADE.C119_mark"
   ],
   "note": "Refuted for OVCPSO (C119_ovc_false, universal in the run); C119_ovc_partial says what its limits do instead. The statements about reflect, OVCPSO and SHADE are for exact arithmetic."
  },
  {
   "property": "C120",
   "status": "proved",
   "theorems": [
    "NiaPy.Obj.C120_index",
    "NiaPy.Obj.C120_set",
    "NiaPy.Obj.C120_eq",
    "NiaPy.Obj.C120_equivalence",
    "NiaPy.Obj.C120_member",
    "NiaPy.Obj.C120_untouched",
    "NiaPy.Obj.C120_copy",
    "NiaPy.Obj.C120_shared",
    "NiaPy.Obj.C120_list"
   ],
   "note": "Arrays have addresses in this model; repair functions work in place, as those of the library do. That copies lose their fitness is C22."
  },
  {
   "property": "C121",
   "status": "partial",
   "theorems": [
    "NiaPy.Cb.C121_constructed",
    "NiaPy.Cb.C121_grows",
    "NiaPy.Cb.C121_append",
    "NiaPy.Cb.C121_algorithm_partial",
    "NiaPy.Cb.C121_algorithm_false",
    "NiaPy.Cb.C121_appended_false"
   ],
   "note": "The attribute algorithm is refuted for appended and for shared callbacks; C121_algorithm_partial says when it is right. Callback lists inside callback lists are not modelled here."
  },
  {
   "property": "C122",
   "status": "partial",
   "theorems": [
    "NiaPy.TaskInit.C122_lengths",
    "NiaPy.TaskInit.C122_given_partial",
    "NiaPy.TaskInit.C122_given_false",
    "NiaPy.TaskInit.C122_only",
    "NiaPy.TaskInit.C122_four",
    "NiaPy.TaskInit.C122_defaults",
    "NiaPy.TaskInit.C122_instance",
    "NiaPy.TaskInit.C122_unchecked_false"
   ],
   "note": "C122_given_partial is for all benchmarks but the four of C122_given_false; C122_only says that these four are the only ones. Dimensions are natural numbers."
  },
  {
   "property": "C123",
   "status": "partial",
   "theorems": [
    "NiaPy.FOA.C123_age",
    "NiaPy.DE.C123_aging",
    "NiaPy.DE.C123_proportional",
    "NiaPy.DE.C123_linear",
    "NiaPy.DE.C123_bilinear",
    "NiaPy.ABC.C123_trials_partial",
    "NiaPy.ABC.C123_limit_false"
   ],
   "note": "Refuted for the limit of the bees (a concrete run); C123_trials_partial says what bound holds instead. C123_linear and C123_bilinear are for exact arithmetic. The three about lifetimes assume that rounding does not exceed an integer bound; that the round of Python has this property is not part of the model."
  }
 ]
}