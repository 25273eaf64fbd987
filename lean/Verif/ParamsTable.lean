import Verif.Params

/-!
# The constructors and parameter methods of all algorithm classes (C83, C84)

One entry per class of `niapy/algorithms`, transcribed statement by statement from `__init__`, `set_parameters` and `get_parameters`.
Left out: the attributes `callbacks` and `rng`. Numeric constants are written in shortest form, so `1` and `1.0` are the same.
-/

namespace NiaPy.Params

open Exp Stmt GetStmt

/-- `Algorithm` (algorithm.py:62; algorithm.py:86-108; algorithm.py:120-137; algorithm.py:139-152) -/
def cAlgorithm : Class where
  bases := []
  init := some {
    star := true
    params := [
      (.population_size, .v50), (.initialization_function, .default_numpy_init), (.individual_type, .None), (.callbacks, .None), (.seed, .None)]
    body := [
      .assign .population_size (.arg .population_size), .assign .initialization_function (.arg .initialization_function),
      .assign .individual_type (.arg .individual_type), .assign .exception (.const .None)] }
  set := some {
    star := true
    params := [
      (.population_size, .v50), (.initialization_function, .default_numpy_init), (.individual_type, .None)]
    body := [
      .assign .population_size (.arg .population_size), .assign .initialization_function (.arg .initialization_function),
      .assign .individual_type (.arg .individual_type)] }
  get := some [
    .put .population_size .population_size, .put .initialization_function .initialization_function, .put .individual_type .individual_type]

/-- `ArtificialBeeColonyAlgorithm` (basic/abc.py:33; basic/abc.py:75-89; basic/abc.py:91-105; basic/abc.py:107-113) -/
def cArtificialBeeColonyAlgorithm : Class where
  bases := [.Algorithm]
  init := some {
    star := true
    params := [
      (.population_size, .v10), (.limit, .v100)]
    body := [
      .call (.above .ArtificialBeeColonyAlgorithm) .init [.arg .population_size] true [(.initialization_function, .const .default_individual_init), (.individual_type, .const .SolutionABC)] true,
      .assign .limit (.arg .limit), .assign .food_number (.op .op_fdiv_2 (.attr .population_size) (.const .None))] }
  set := some {
    star := false
    params := [
      (.population_size, .v10), (.limit, .v100)]
    body := [
      .call (.above .ArtificialBeeColonyAlgorithm) .set [] false [(.population_size, .arg .population_size), (.initialization_function, .const .default_individual_init), (.individual_type, .const .SolutionABC)] true,
      .assign .food_number (.op .op_fdiv_2 (.attr .population_size) (.const .None)), .assign .limit (.arg .limit)] }
  get := some [
    .merge (.above .ArtificialBeeColonyAlgorithm), .put .limit .limit]

/-- `BatAlgorithm` (basic/ba.py:15; basic/ba.py:62-85; basic/ba.py:87-110; basic/ba.py:112-128) -/
def cBatAlgorithm : Class where
  bases := [.Algorithm]
  init := some {
    star := true
    params := [
      (.population_size, .v40), (.loudness, .v1), (.pulse_rate, .v1), (.alpha, .v0_97), (.gamma, .v0_1), (.min_frequency, .v0), (.max_frequency, .v2)]
    body := [
      .call (.above .BatAlgorithm) .init [.arg .population_size] true [] true, .assign .loudness (.arg .loudness),
      .assign .pulse_rate (.arg .pulse_rate), .assign .alpha (.arg .alpha), .assign .gamma (.arg .gamma),
      .assign .min_frequency (.arg .min_frequency), .assign .max_frequency (.arg .max_frequency)] }
  set := some {
    star := false
    params := [
      (.population_size, .v20), (.loudness, .v1), (.pulse_rate, .v1), (.alpha, .v0_97), (.gamma, .v0_1), (.min_frequency, .v0), (.max_frequency, .v2)]
    body := [
      .call (.above .BatAlgorithm) .set [] false [(.population_size, .arg .population_size)] true, .assign .loudness (.arg .loudness),
      .assign .pulse_rate (.arg .pulse_rate), .assign .alpha (.arg .alpha), .assign .gamma (.arg .gamma),
      .assign .min_frequency (.arg .min_frequency), .assign .max_frequency (.arg .max_frequency)] }
  get := some [
    .merge (.above .BatAlgorithm), .put .loudness .loudness, .put .pulse_rate .pulse_rate, .put .alpha .alpha, .put .gamma .gamma,
    .put .min_frequency .min_frequency, .put .max_frequency .max_frequency]

/-- `BeesAlgorithm` (basic/bea.py:15; basic/bea.py:61-81; basic/bea.py:83-103; basic/bea.py:105-120) -/
def cBeesAlgorithm : Class where
  bases := [.Algorithm]
  init := some {
    star := true
    params := [
      (.population_size, .v40), (.m, .v5), (.e, .v4), (.ngh, .v1), (.nep, .v4), (.nsp, .v2)]
    body := [
      .call (.above .BeesAlgorithm) .init [.arg .population_size] true [] true, .assign .m (.arg .m), .assign .e (.arg .e), .assign .ngh (.arg .ngh),
      .assign .nep (.arg .nep), .assign .nsp (.arg .nsp)] }
  set := some {
    star := false
    params := [
      (.population_size, .v40), (.m, .v5), (.e, .v4), (.ngh, .v1), (.nep, .v4), (.nsp, .v2)]
    body := [
      .call (.above .BeesAlgorithm) .set [] false [(.population_size, .arg .population_size)] true, .assign .m (.arg .m), .assign .e (.arg .e),
      .assign .ngh (.arg .ngh), .assign .nep (.arg .nep), .assign .nsp (.arg .nsp)] }
  get := some [
    .merge (.above .BeesAlgorithm), .put .m .m, .put .e .e, .put .ngh .ngh, .put .nep .nep, .put .nsp .nsp]

/-- `BacterialForagingOptimization` (basic/bfo.py:16; basic/bfo.py:68-106; basic/bfo.py:108-139; basic/bfo.py:141-162) -/
def cBacterialForagingOptimization : Class where
  bases := [.Algorithm]
  init := some {
    star := true
    params := [
      (.population_size, .v50), (.n_chemotactic, .v100), (.n_swim, .v4), (.n_reproduction, .v4), (.n_elimination, .v2), (.prob_elimination, .v0_25),
      (.step_size, .v0_1), (.swarming, .True), (.d_attract, .v0_1), (.w_attract, .v0_2), (.h_repel, .v0_1), (.w_repel, .v10)]
    body := [
      .call (.above .BacterialForagingOptimization) .init [.arg .population_size] true [] true, .assign .n_chemotactic (.arg .n_chemotactic),
      .assign .n_swim (.arg .n_swim), .assign .n_reproduction (.arg .n_reproduction), .assign .n_elimination (.arg .n_elimination),
      .assign .prob_elimination (.arg .prob_elimination), .assign .step_size (.arg .step_size), .assign .swarming (.arg .swarming),
      .assign .d_attract (.arg .d_attract), .assign .w_attract (.arg .w_attract), .assign .h_repel (.arg .h_repel), .assign .w_repel (.arg .w_repel),
      .assign .i (.const .v0), .assign .j (.const .v0), .assign .k (.const .v0)] }
  set := some {
    star := false
    params := [
      (.population_size, .v50), (.n_chemotactic, .v100), (.n_swim, .v4), (.n_reproduction, .v4), (.n_elimination, .v2), (.prob_elimination, .v0_25),
      (.step_size, .v0_1), (.swarming, .True), (.d_attract, .v0_1), (.w_attract, .v0_2), (.h_repel, .v0_1), (.w_repel, .v10)]
    body := [
      .call (.above .BacterialForagingOptimization) .set [] false [(.population_size, .arg .population_size)] true,
      .assign .n_chemotactic (.arg .n_chemotactic), .assign .n_swim (.arg .n_swim), .assign .n_reproduction (.arg .n_reproduction),
      .assign .n_elimination (.arg .n_elimination), .assign .prob_elimination (.arg .prob_elimination), .assign .step_size (.arg .step_size),
      .assign .swarming (.arg .swarming), .assign .d_attract (.arg .d_attract), .assign .w_attract (.arg .w_attract),
      .assign .h_repel (.arg .h_repel), .assign .w_repel (.arg .w_repel)] }
  get := some [
    .merge (.above .BacterialForagingOptimization), .put .n_chemotactic .n_chemotactic, .put .n_swim .n_swim, .put .n_reproduction .n_reproduction,
    .put .n_elimination .n_elimination, .put .prob_elimination .prob_elimination, .put .step_size .step_size, .put .swarming .swarming,
    .put .d_attract .d_attract, .put .w_attract .w_attract, .put .h_repel .h_repel, .put .w_repel .w_repel]

/-- `CamelAlgorithm` (basic/ca.py:138; basic/ca.py:192-219; basic/ca.py:221-247; basic/ca.py:249-266) -/
def cCamelAlgorithm : Class where
  bases := [.Algorithm]
  init := some {
    star := true
    params := [
      (.population_size, .v50), (.burden_factor, .v0_25), (.death_rate, .v0_5), (.visibility, .v0_5), (.supply_init, .v10), (.endurance_init, .v10),
      (.min_temperature, .vm10), (.max_temperature, .v10)]
    body := [
      .call (.above .CamelAlgorithm) .init [.arg .population_size] true [(.individual_type, .pop .individual_type (.const .Camel)), (.initialization_function, .pop .initialization_function (.const .self_init_pop))] true,
      .assign .burden_factor (.arg .burden_factor), .assign .death_rate (.arg .death_rate), .assign .visibility (.arg .visibility),
      .assign .supply_init (.arg .supply_init), .assign .endurance_init (.arg .endurance_init), .assign .min_temperature (.arg .min_temperature),
      .assign .max_temperature (.arg .max_temperature)] }
  set := some {
    star := false
    params := [
      (.population_size, .v50), (.burden_factor, .v0_25), (.death_rate, .v0_5), (.visibility, .v0_5), (.supply_init, .v10), (.endurance_init, .v10),
      (.min_temperature, .vm10), (.max_temperature, .v10)]
    body := [
      .call (.above .CamelAlgorithm) .set [] false [(.population_size, .arg .population_size), (.individual_type, .const .Camel), (.initialization_function, .pop .initialization_function (.const .self_init_pop))] true,
      .assign .burden_factor (.arg .burden_factor), .assign .death_rate (.arg .death_rate), .assign .visibility (.arg .visibility),
      .assign .supply_init (.arg .supply_init), .assign .endurance_init (.arg .endurance_init), .assign .min_temperature (.arg .min_temperature),
      .assign .max_temperature (.arg .max_temperature)] }
  get := some [
    .merge (.above .CamelAlgorithm), .put .burden_factor .burden_factor, .put .death_rate .death_rate, .put .visibility .visibility,
    .put .supply_init .supply_init, .put .endurance_init .endurance_init, .put .min_temperature .min_temperature,
    .put .max_temperature .max_temperature]

/-- `ClonalSelectionAlgorithm` (basic/clonalg.py:14; basic/clonalg.py:60-80; basic/clonalg.py:82-102; basic/clonalg.py:104-118) -/
def cClonalSelectionAlgorithm : Class where
  bases := [.Algorithm]
  init := some {
    star := true
    params := [
      (.population_size, .v10), (.clone_factor, .v0_1), (.mutation_factor, .v10), (.num_rand, .v1), (.bits_per_param, .v16)]
    body := [
      .call (.above .ClonalSelectionAlgorithm) .init [.arg .population_size] true [] true, .assign .clone_factor (.arg .clone_factor),
      .assign .num_clones (.op .int_mul (.attr .population_size) (.attr .clone_factor)), .assign .mutation_factor (.arg .mutation_factor),
      .assign .num_rand (.arg .num_rand), .assign .bits_per_param (.arg .bits_per_param)] }
  set := some {
    star := false
    params := [
      (.population_size, .v10), (.clone_factor, .v0_1), (.mutation_factor, .v10), (.num_rand, .v1), (.bits_per_param, .v16)]
    body := [
      .call (.above .ClonalSelectionAlgorithm) .set [] false [(.population_size, .arg .population_size)] true,
      .assign .clone_factor (.arg .clone_factor), .assign .num_clones (.op .int_mul (.attr .population_size) (.attr .clone_factor)),
      .assign .mutation_factor (.arg .mutation_factor), .assign .num_rand (.arg .num_rand), .assign .bits_per_param (.arg .bits_per_param)] }
  get := some [
    .merge (.above .ClonalSelectionAlgorithm), .put .clone_factor .clone_factor, .put .mutation_factor .mutation_factor, .put .num_rand .num_rand,
    .put .bits_per_param .bits_per_param]

/-- `CoralReefsOptimization` (basic/cro.py:81; basic/cro.py:140-175; basic/cro.py:177-212; basic/cro.py:214-233) -/
def cCoralReefsOptimization : Class where
  bases := [.Algorithm]
  init := some {
    star := true
    params := [
      (.population_size, .v25), (.phi, .v0_4), (.asexual_reproduction_prob, .v0_5), (.broadcast_prob, .v0_5), (.depredation_prob, .v0_3), (.k, .v25),
      (.crossover_rate, .v0_5), (.mutation_rate, .v0_36), (.sexual_crossover, .default_sexual_crossover), (.brooding, .default_brooding)]
    body := [
      .call (.above .CoralReefsOptimization) .init [.arg .population_size] true [] true, .assign .phi (.arg .phi), .assign .k (.arg .k),
      .assign .crossover_rate (.arg .crossover_rate), .assign .mutation_rate (.arg .mutation_rate),
      .assign .asexual_reproduction_prob (.arg .asexual_reproduction_prob), .assign .broadcast_prob (.arg .broadcast_prob),
      .assign .depredation_prob (.arg .depredation_prob),
      .assign .num_asexual_reproduction (.op .int_mul (.attr .population_size) (.arg .asexual_reproduction_prob)),
      .assign .num_broadcast (.op .int_mul (.attr .population_size) (.arg .broadcast_prob)),
      .assign .num_depredation (.op .int_mul (.attr .population_size) (.arg .depredation_prob)), .assign .sexual_crossover (.arg .sexual_crossover),
      .assign .brooding (.arg .brooding)] }
  set := some {
    star := false
    params := [
      (.population_size, .v25), (.phi, .v0_4), (.asexual_reproduction_prob, .v0_5), (.broadcast_prob, .v0_5), (.depredation_prob, .v0_3), (.k, .v25),
      (.crossover_rate, .v0_5), (.mutation_rate, .v0_36), (.sexual_crossover, .default_sexual_crossover), (.brooding, .default_brooding)]
    body := [
      .call (.above .CoralReefsOptimization) .set [.const .self] false [(.population_size, .arg .population_size)] true, .assign .phi (.arg .phi),
      .assign .k (.arg .k), .assign .crossover_rate (.arg .crossover_rate), .assign .mutation_rate (.arg .mutation_rate),
      .assign .asexual_reproduction_prob (.arg .asexual_reproduction_prob), .assign .broadcast_prob (.arg .broadcast_prob),
      .assign .depredation_prob (.arg .depredation_prob),
      .assign .num_asexual_reproduction (.op .int_mul (.attr .population_size) (.arg .asexual_reproduction_prob)),
      .assign .num_broadcast (.op .int_mul (.attr .population_size) (.arg .broadcast_prob)),
      .assign .num_depredation (.op .int_mul (.attr .population_size) (.arg .depredation_prob)), .assign .sexual_crossover (.arg .sexual_crossover),
      .assign .brooding (.arg .brooding)] }
  get := some [
    .merge (.above .CoralReefsOptimization), .put .phi .phi, .put .k .k, .put .cr .crossover_rate, .put .mr .mutation_rate,
    .put .asexual_reproduction_prob .asexual_reproduction_prob, .put .depredation_prob .depredation_prob, .put .broadcast_prob .broadcast_prob,
    .put .sexual_crossover .sexual_crossover, .put .brooding .brooding]

/-- `CuckooSearch` (basic/cs.py:16; basic/cs.py:60-72; basic/cs.py:74-86; basic/cs.py:88-94) -/
def cCuckooSearch : Class where
  bases := [.Algorithm]
  init := some {
    star := true
    params := [
      (.population_size, .v25), (.pa, .v0_25)]
    body := [
      .call (.above .CuckooSearch) .init [.arg .population_size] true [] true, .assign .pa (.arg .pa)] }
  set := some {
    star := false
    params := [
      (.population_size, .v50), (.pa, .v0_2)]
    body := [
      .call (.above .CuckooSearch) .set [] false [(.population_size, .arg .population_size)] true, .assign .pa (.arg .pa)] }
  get := some [
    .merge (.above .CuckooSearch), .put .pa .pa]

/-- `CatSwarmOptimization` (basic/cso.py:16; basic/cso.py:49-74; basic/cso.py:76-101; basic/cso.py:103-120) -/
def cCatSwarmOptimization : Class where
  bases := [.Algorithm]
  init := some {
    star := true
    params := [
      (.population_size, .v30), (.mixture_ratio, .v0_1), (.c1, .v2_05), (.smp, .v3), (.spc, .True), (.cdc, .v0_85), (.srd, .v0_2),
      (.max_velocity, .v1_9)]
    body := [
      .call (.above .CatSwarmOptimization) .init [.arg .population_size] true [] true, .assign .mixture_ratio (.arg .mixture_ratio),
      .assign .c1 (.arg .c1), .assign .smp (.arg .smp), .assign .spc (.arg .spc), .assign .cdc (.arg .cdc), .assign .srd (.arg .srd),
      .assign .max_velocity (.arg .max_velocity)] }
  set := some {
    star := false
    params := [
      (.population_size, .v30), (.mixture_ratio, .v0_1), (.c1, .v2_05), (.smp, .v3), (.spc, .True), (.cdc, .v0_85), (.srd, .v0_2),
      (.max_velocity, .v1_9)]
    body := [
      .call (.above .CatSwarmOptimization) .set [.arg .population_size] false [] true, .assign .mixture_ratio (.arg .mixture_ratio),
      .assign .c1 (.arg .c1), .assign .smp (.arg .smp), .assign .spc (.arg .spc), .assign .cdc (.arg .cdc), .assign .srd (.arg .srd),
      .assign .max_velocity (.arg .max_velocity)] }
  get := some [
    .merge (.above .CatSwarmOptimization), .put .mixture_ratio .mixture_ratio, .put .c1 .c1, .put .smp .smp, .put .spc .spc, .put .cdc .cdc,
    .put .srd .srd, .put .max_velocity .max_velocity]

/-- `DifferentialEvolution` (basic/de.py:231; basic/de.py:275-295; basic/de.py:297-317; basic/de.py:319-335) -/
def cDifferentialEvolution : Class where
  bases := [.Algorithm]
  init := some {
    star := true
    params := [
      (.population_size, .v50), (.differential_weight, .v1), (.crossover_probability, .v0_8), (.strategy, .cross_rand1)]
    body := [
      .call (.above .DifferentialEvolution) .init [.arg .population_size] true [(.initialization_function, .pop .initialization_function (.const .default_individual_init)), (.individual_type, .pop .individual_type (.const .Individual))] true,
      .assign .differential_weight (.arg .differential_weight), .assign .crossover_probability (.arg .crossover_probability),
      .assign .strategy (.arg .strategy)] }
  set := some {
    star := false
    params := [
      (.population_size, .v50), (.differential_weight, .v1), (.crossover_probability, .v0_8), (.strategy, .cross_rand1)]
    body := [
      .call (.above .DifferentialEvolution) .set [] false [(.population_size, .arg .population_size), (.initialization_function, .pop .initialization_function (.const .default_individual_init)), (.individual_type, .pop .individual_type (.const .Individual))] true,
      .assign .differential_weight (.arg .differential_weight), .assign .crossover_probability (.arg .crossover_probability),
      .assign .strategy (.arg .strategy)] }
  get := some [
    .merge (.named .Algorithm), .put .differential_weight .differential_weight, .put .crossover_probability .crossover_probability,
    .put .strategy .strategy]

/-- `DynNpDifferentialEvolution` (basic/de.py:425; basic/de.py:465-478; basic/de.py:480-493; basic/de.py:495-507) -/
def cDynNpDifferentialEvolution : Class where
  bases := [.DifferentialEvolution]
  init := some {
    star := true
    params := [
      (.population_size, .v10), (.p_max, .v50), (.rp, .v3)]
    body := [
      .call (.above .DynNpDifferentialEvolution) .init [.arg .population_size] true [] true, .assign .p_max (.arg .p_max), .assign .rp (.arg .rp)] }
  set := some {
    star := false
    params := [
      (.p_max, .v50), (.rp, .v3)]
    body := [
      .call (.above .DynNpDifferentialEvolution) .set [] false [] true, .assign .p_max (.arg .p_max), .assign .rp (.arg .rp)] }
  get := some [
    .merge (.above .DynNpDifferentialEvolution), .put .p_max .p_max, .put .rp .rp]

/-- `AgingNpDifferentialEvolution` (basic/de.py:613; basic/de.py:657-677; basic/de.py:679-699; basic/de.py:701-710) -/
def cAgingNpDifferentialEvolution : Class where
  bases := [.DifferentialEvolution]
  init := some {
    star := true
    params := [
      (.min_lifetime, .v0), (.max_lifetime, .v12), (.delta_np, .v0_3), (.omega, .v0_3), (.age, .proportional)]
    body := [
      .call (.above .AgingNpDifferentialEvolution) .init [] true [(.individual_type, .const .AgingIndividual)] true,
      .assign .min_lifetime (.arg .min_lifetime), .assign .max_lifetime (.arg .max_lifetime), .assign .age (.arg .age),
      .assign .delta_np (.arg .delta_np), .assign .omega (.arg .omega), .assign .mu (.op .abs_sub_div_2 (.attr .max_lifetime) (.attr .min_lifetime))] }
  set := some {
    star := false
    params := [
      (.min_lifetime, .v0), (.max_lifetime, .v12), (.delta_np, .v0_3), (.omega, .v0_3), (.age, .proportional)]
    body := [
      .call (.above .AgingNpDifferentialEvolution) .set [] false [(.individual_type, .const .AgingIndividual)] true,
      .assign .min_lifetime (.arg .min_lifetime), .assign .max_lifetime (.arg .max_lifetime), .assign .age (.arg .age),
      .assign .delta_np (.arg .delta_np), .assign .omega (.arg .omega), .assign .mu (.op .abs_sub_div_2 (.attr .max_lifetime) (.attr .min_lifetime))] }
  get := some [
    .merge (.above .AgingNpDifferentialEvolution), .put .min_lifetime .min_lifetime, .put .max_lifetime .max_lifetime, .put .delta_np .delta_np,
    .put .omega .omega, .put .age .age]

/-- `MultiStrategyDifferentialEvolution` (basic/de.py:862; basic/de.py:901-913; basic/de.py:915-927; basic/de.py:929-941) -/
def cMultiStrategyDifferentialEvolution : Class where
  bases := [.DifferentialEvolution]
  init := some {
    star := true
    params := [
      (.population_size, .v40), (.strategies, .cross_rand1_cross_best1_cross_curr2best1_cross_rand2)]
    body := [
      .call (.above .MultiStrategyDifferentialEvolution) .init [.arg .population_size] true [(.strategy, .const .multi_mutations)] true,
      .assign .strategies (.arg .strategies)] }
  set := some {
    star := false
    params := [
      (.strategies, .cross_rand1_cross_best1_cross_curr2best1_cross_rand2)]
    body := [
      .call (.above .MultiStrategyDifferentialEvolution) .set [] false [(.strategy, .const .multi_mutations)] true,
      .assign .strategies (.arg .strategies)] }
  get := some [
    .merge (.above .MultiStrategyDifferentialEvolution), .put .strategies .strategies]

/-- `DynNpMultiStrategyDifferentialEvolution` (basic/de.py:960; basic/de.py:999-1008; basic/de.py:1010-1019) -/
def cDynNpMultiStrategyDifferentialEvolution : Class where
  bases := [.MultiStrategyDifferentialEvolution, .DynNpDifferentialEvolution]
  set := some {
    star := false
    params := [
]
    body := [
      .call (.named .DynNpDifferentialEvolution) .set [] false [] true, .call (.named .MultiStrategyDifferentialEvolution) .set [] false [] true] }
  get := some [
    .merge (.named .DynNpDifferentialEvolution), .merge (.named .MultiStrategyDifferentialEvolution)]

/-- `EvolutionStrategy1p1` (basic/es.py:39; basic/es.py:87-107; basic/es.py:109-129; basic/es.py:131-147) -/
def cEvolutionStrategy1p1 : Class where
  bases := [.Algorithm]
  init := some {
    star := true
    params := [
      (.mu, .v1), (.k, .v10), (.c_a, .v1_1), (.c_r, .v0_5), (.epsilon, .v1em20)]
    body := [
      .drop .population_size,
      .call (.above .EvolutionStrategy1p1) .init [] true [(.population_size, .arg .mu), (.individual_type, .pop .individual_type (.const .IndividualES))] true,
      .assign .mu (.arg .mu), .assign .k (.arg .k), .assign .c_a (.arg .c_a), .assign .c_r (.arg .c_r), .assign .epsilon (.arg .epsilon)] }
  set := some {
    star := false
    params := [
      (.mu, .v1), (.k, .v10), (.c_a, .v1_1), (.c_r, .v0_5), (.epsilon, .v1em20)]
    body := [
      .drop .population_size,
      .call (.above .EvolutionStrategy1p1) .set [] false [(.population_size, .arg .mu), (.individual_type, .pop .individual_type (.const .IndividualES))] true,
      .assign .mu (.arg .mu), .assign .k (.arg .k), .assign .c_a (.arg .c_a), .assign .c_r (.arg .c_r), .assign .epsilon (.arg .epsilon)] }
  get := some [
    .merge (.above .EvolutionStrategy1p1), .remove .population_size, .put .mu .mu, .put .k .k, .put .c_a .c_a, .put .c_r .c_r, .put .epsilon .epsilon]

/-- `EvolutionStrategyMp1` (basic/es.py:233; basic/es.py:275-277; basic/es.py:279-287) -/
def cEvolutionStrategyMp1 : Class where
  bases := [.EvolutionStrategy1p1]
  init := some {
    star := true
    params := [
      (.mu, .v40)]
    body := [
      .call (.above .EvolutionStrategyMp1) .init [] true [(.mu, .arg .mu)] true] }
  set := some {
    star := false
    params := [
]
    body := [
      .bind .mu (.pop .mu (.const .v40)), .call (.above .EvolutionStrategyMp1) .set [.const .self] false [(.mu, .arg .mu)] true] }

/-- `EvolutionStrategyMpL` (basic/es.py:290; basic/es.py:333-341; basic/es.py:343-354; basic/es.py:356-365) -/
def cEvolutionStrategyMpL : Class where
  bases := [.EvolutionStrategy1p1]
  init := some {
    star := true
    params := [
      (.lam, .v45)]
    body := [
      .call (.above .EvolutionStrategyMpL) .init [] true [(.initialization_function, .const .default_individual_init)] true, .assign .lam (.arg .lam)] }
  set := some {
    star := false
    params := [
      (.lam, .v45)]
    body := [
      .call (.above .EvolutionStrategyMpL) .set [] false [(.initialization_function, .const .default_individual_init)] true, .assign .lam (.arg .lam)] }
  get := some [
    .merge (.above .EvolutionStrategyMpL), .put .lam .lam]

/-- `EvolutionStrategyML` (basic/es.py:471) -/
def cEvolutionStrategyML : Class where
  bases := [.EvolutionStrategyMpL]

/-- `FireflyAlgorithm` (basic/fa.py:16; basic/fa.py:62-80; basic/fa.py:82-100; basic/fa.py:102-116) -/
def cFireflyAlgorithm : Class where
  bases := [.Algorithm]
  init := some {
    star := true
    params := [
      (.population_size, .v20), (.alpha, .v1), (.beta0, .v1), (.gamma, .v0_01), (.theta, .v0_97)]
    body := [
      .call (.above .FireflyAlgorithm) .init [.arg .population_size] true [] true, .assign .alpha (.arg .alpha), .assign .beta0 (.arg .beta0),
      .assign .gamma (.arg .gamma), .assign .theta (.arg .theta)] }
  set := some {
    star := false
    params := [
      (.population_size, .v20), (.alpha, .v1), (.beta0, .v1), (.gamma, .v0_01), (.theta, .v0_97)]
    body := [
      .call (.above .FireflyAlgorithm) .set [] false [(.population_size, .arg .population_size)] true, .assign .alpha (.arg .alpha),
      .assign .beta0 (.arg .beta0), .assign .gamma (.arg .gamma), .assign .theta (.arg .theta)] }
  get := some [
    .merge (.above .FireflyAlgorithm), .put .alpha .alpha, .put .beta0 .beta0, .put .gamma .gamma, .put .theta .theta]

/-- `ForestOptimizationAlgorithm` (basic/foa.py:15; basic/foa.py:64-86; basic/foa.py:88-110; basic/foa.py:112-127) -/
def cForestOptimizationAlgorithm : Class where
  bases := [.Algorithm]
  init := some {
    star := true
    params := [
      (.population_size, .v10), (.lifetime, .v3), (.area_limit, .v10), (.local_seeding_changes, .v1), (.global_seeding_changes, .v1),
      (.transfer_rate, .v0_3)]
    body := [
      .call (.above .ForestOptimizationAlgorithm) .init [.arg .population_size] true [] true, .assign .lifetime (.arg .lifetime),
      .assign .area_limit (.arg .area_limit), .assign .local_seeding_changes (.arg .local_seeding_changes),
      .assign .global_seeding_changes (.arg .global_seeding_changes), .assign .transfer_rate (.arg .transfer_rate), .assign .dx (.const .None)] }
  set := some {
    star := false
    params := [
      (.population_size, .v10), (.lifetime, .v3), (.area_limit, .v10), (.local_seeding_changes, .v1), (.global_seeding_changes, .v1),
      (.transfer_rate, .v0_3)]
    body := [
      .call (.above .ForestOptimizationAlgorithm) .set [] false [(.population_size, .arg .population_size)] true, .assign .lifetime (.arg .lifetime),
      .assign .area_limit (.arg .area_limit), .assign .local_seeding_changes (.arg .local_seeding_changes),
      .assign .global_seeding_changes (.arg .global_seeding_changes), .assign .transfer_rate (.arg .transfer_rate), .assign .dx (.const .None)] }
  get := some [
    .merge (.named .Algorithm), .put .lifetime .lifetime, .put .area_limit .area_limit, .put .local_seeding_changes .local_seeding_changes,
    .put .global_seeding_changes .global_seeding_changes, .put .transfer_rate .transfer_rate]

/-- `FlowerPollinationAlgorithm` (basic/fpa.py:14; basic/fpa.py:59-71; basic/fpa.py:73-85; basic/fpa.py:87-96) -/
def cFlowerPollinationAlgorithm : Class where
  bases := [.Algorithm]
  init := some {
    star := true
    params := [
      (.population_size, .v20), (.p, .v0_8)]
    body := [
      .call (.above .FlowerPollinationAlgorithm) .init [.arg .population_size] true [] true, .assign .p (.arg .p)] }
  set := some {
    star := false
    params := [
      (.population_size, .v25), (.p, .v0_8)]
    body := [
      .call (.above .FlowerPollinationAlgorithm) .set [] false [(.population_size, .arg .population_size)] true, .assign .p (.arg .p)] }
  get := some [
    .merge (.above .FlowerPollinationAlgorithm), .put .p .p]

/-- `FishSchoolSearch` (basic/fss.py:39; basic/fss.py:92-115; basic/fss.py:117-140; basic/fss.py:142-161) -/
def cFishSchoolSearch : Class where
  bases := [.Algorithm]
  init := some {
    star := true
    params := [
      (.population_size, .v30), (.step_individual_init, .v0_1), (.step_individual_final, .v0_0001), (.step_volitive_init, .v0_01),
      (.step_volitive_final, .v0_001), (.min_w, .v1), (.w_scale, .v500)]
    body := [
      .call (.above .FishSchoolSearch) .init [.arg .population_size] true [] true, .assign .step_individual_init (.arg .step_individual_init),
      .assign .step_individual_final (.arg .step_individual_final), .assign .step_volitive_init (.arg .step_volitive_init),
      .assign .step_volitive_final (.arg .step_volitive_final), .assign .min_w (.arg .min_w), .assign .w_scale (.arg .w_scale)] }
  set := some {
    star := false
    params := [
      (.population_size, .v30), (.step_individual_init, .v0_1), (.step_individual_final, .v0_0001), (.step_volitive_init, .v0_01),
      (.step_volitive_final, .v0_001), (.min_w, .v1), (.w_scale, .v5000)]
    body := [
      .call (.above .FishSchoolSearch) .set [] false [(.population_size, .arg .population_size)] true,
      .assign .step_individual_init (.arg .step_individual_init), .assign .step_individual_final (.arg .step_individual_final),
      .assign .step_volitive_init (.arg .step_volitive_init), .assign .step_volitive_final (.arg .step_volitive_final), .assign .min_w (.arg .min_w),
      .assign .w_scale (.arg .w_scale)] }
  get := some [
    .merge (.above .FishSchoolSearch), .put .step_individual_init .step_individual_init, .put .step_individual_final .step_individual_final,
    .put .step_volitive_init .step_volitive_init, .put .step_volitive_final .step_volitive_final, .put .min_w .min_w, .put .w_scale .w_scale]

/-- `BareBonesFireworksAlgorithm` (basic/fwa.py:18; basic/fwa.py:62-75; basic/fwa.py:77-90; basic/fwa.py:92-106) -/
def cBareBonesFireworksAlgorithm : Class where
  bases := [.Algorithm]
  init := some {
    star := true
    params := [
      (.num_sparks, .v10), (.amplification_coefficient, .v1_5), (.reduction_coefficient, .v0_5)]
    body := [
      .drop .population_size, .call (.above .BareBonesFireworksAlgorithm) .init [.const .v1] true [] true, .assign .num_sparks (.arg .num_sparks),
      .assign .amplification_coefficient (.arg .amplification_coefficient), .assign .reduction_coefficient (.arg .reduction_coefficient)] }
  set := some {
    star := false
    params := [
      (.num_sparks, .v10), (.amplification_coefficient, .v1_5), (.reduction_coefficient, .v0_5)]
    body := [
      .drop .population_size, .call (.above .BareBonesFireworksAlgorithm) .set [] false [(.population_size, .const .v1)] true,
      .assign .num_sparks (.arg .num_sparks), .assign .amplification_coefficient (.arg .amplification_coefficient),
      .assign .reduction_coefficient (.arg .reduction_coefficient)] }
  get := some [
    .merge (.above .BareBonesFireworksAlgorithm), .remove .population_size, .put .num_sparks .num_sparks,
    .put .amplification_coefficient .amplification_coefficient, .put .reduction_coefficient .reduction_coefficient]

/-- `FireworksAlgorithm` (basic/fwa.py:162; basic/fwa.py:203-221; basic/fwa.py:223-242; basic/fwa.py:244-259) -/
def cFireworksAlgorithm : Class where
  bases := [.Algorithm]
  init := some {
    star := true
    params := [
      (.population_size, .v5), (.num_sparks, .v50), (.a, .v0_04), (.b, .v0_8), (.max_amplitude, .v40), (.num_gaussian, .v5)]
    body := [
      .call (.above .FireworksAlgorithm) .init [.arg .population_size] true [] true, .assign .num_sparks (.arg .num_sparks), .assign .a (.arg .a),
      .assign .b (.arg .b), .assign .max_amplitude (.arg .max_amplitude), .assign .num_gaussian (.arg .num_gaussian),
      .assign .epsilon (.const .np_finfo_float_eps)] }
  set := some {
    star := false
    params := [
      (.population_size, .v5), (.num_sparks, .v50), (.a, .v0_04), (.b, .v0_8), (.max_amplitude, .v40), (.num_gaussian, .v5)]
    body := [
      .call (.above .FireworksAlgorithm) .set [] false [(.population_size, .arg .population_size)] true, .assign .num_sparks (.arg .num_sparks),
      .assign .a (.arg .a), .assign .b (.arg .b), .assign .max_amplitude (.arg .max_amplitude), .assign .num_gaussian (.arg .num_gaussian),
      .assign .epsilon (.const .np_finfo_float_eps)] }
  get := some [
    .merge (.above .FireworksAlgorithm), .put .num_sparks .num_sparks, .put .a .a, .put .b .b, .put .max_amplitude .max_amplitude,
    .put .num_gaussian .num_gaussian]

/-- `EnhancedFireworksAlgorithm` (basic/fwa.py:432; basic/fwa.py:475-488; basic/fwa.py:490-503; basic/fwa.py:505-517) -/
def cEnhancedFireworksAlgorithm : Class where
  bases := [.FireworksAlgorithm]
  init := some {
    star := true
    params := [
      (.amplitude_init, .v0_2), (.amplitude_final, .v0_01)]
    body := [
      .call (.above .EnhancedFireworksAlgorithm) .init [] true [] true, .assign .amplitude_init (.arg .amplitude_init),
      .assign .amplitude_final (.arg .amplitude_final)] }
  set := some {
    star := false
    params := [
      (.amplitude_init, .v0_2), (.amplitude_final, .v0_01)]
    body := [
      .call (.above .EnhancedFireworksAlgorithm) .set [] false [] true, .assign .amplitude_init (.arg .amplitude_init),
      .assign .amplitude_final (.arg .amplitude_final)] }
  get := some [
    .merge (.above .EnhancedFireworksAlgorithm), .put .amplitude_init .amplitude_init, .put .amplitude_final .amplitude_final]

/-- `DynamicFireworksAlgorithmGauss` (basic/fwa.py:614; basic/fwa.py:658-671; basic/fwa.py:673-686; basic/fwa.py:688-700) -/
def cDynamicFireworksAlgorithmGauss : Class where
  bases := [.EnhancedFireworksAlgorithm]
  init := some {
    star := true
    params := [
      (.amplification_coeff, .v1_2), (.reduction_coeff, .v0_9)]
    body := [
      .call (.above .DynamicFireworksAlgorithmGauss) .init [] true [] true, .assign .amplification_coeff (.arg .amplification_coeff),
      .assign .reduction_coeff (.arg .reduction_coeff)] }
  set := some {
    star := false
    params := [
      (.amplification_coeff, .v1_2), (.reduction_coeff, .v0_9)]
    body := [
      .call (.above .DynamicFireworksAlgorithmGauss) .set [] false [] true, .assign .amplification_coeff (.arg .amplification_coeff),
      .assign .reduction_coeff (.arg .reduction_coeff)] }
  get := some [
    .merge (.above .DynamicFireworksAlgorithmGauss), .put .amplification_coeff .amplification_coeff, .put .reduction_coeff .reduction_coeff]

/-- `DynamicFireworksAlgorithm` (basic/fwa.py:829) -/
def cDynamicFireworksAlgorithm : Class where
  bases := [.DynamicFireworksAlgorithmGauss]

/-- `GeneticAlgorithm` (basic/ga.py:197; basic/ga.py:244-282; basic/ga.py:284-322; basic/ga.py:324-340) -/
def cGeneticAlgorithm : Class where
  bases := [.Algorithm]
  init := some {
    star := true
    params := [
      (.population_size, .v25), (.tournament_size, .v5), (.mutation_rate, .v0_25), (.crossover_rate, .v0_25), (.selection, .tournament_selection),
      (.crossover, .uniform_crossover), (.mutation, .uniform_mutation)]
    body := [
      .call (.above .GeneticAlgorithm) .init [.arg .population_size] true [(.individual_type, .pop .individual_type (.const .Individual)), (.initialization_function, .pop .initialization_function (.const .default_individual_init))] true,
      .assign .tournament_size (.arg .tournament_size), .assign .mutation_rate (.arg .mutation_rate), .assign .crossover_rate (.arg .crossover_rate),
      .assign .selection (.arg .selection), .assign .crossover (.arg .crossover), .assign .mutation (.arg .mutation)] }
  set := some {
    star := false
    params := [
      (.population_size, .v25), (.tournament_size, .v5), (.mutation_rate, .v0_25), (.crossover_rate, .v0_25), (.selection, .tournament_selection),
      (.crossover, .uniform_crossover), (.mutation, .uniform_mutation)]
    body := [
      .call (.above .GeneticAlgorithm) .set [] false [(.population_size, .arg .population_size), (.individual_type, .pop .individual_type (.const .Individual)), (.initialization_function, .pop .initialization_function (.const .default_individual_init))] true,
      .assign .tournament_size (.arg .tournament_size), .assign .mutation_rate (.arg .mutation_rate), .assign .crossover_rate (.arg .crossover_rate),
      .assign .selection (.arg .selection), .assign .crossover (.arg .crossover), .assign .mutation (.arg .mutation)] }
  get := some [
    .merge (.above .GeneticAlgorithm), .put .tournament_size .tournament_size, .put .mutation_rate .mutation_rate,
    .put .crossover_rate .crossover_rate, .put .selection .selection, .put .crossover .crossover, .put .mutation .mutation]

/-- `GravitationalSearchAlgorithm` (basic/gsa.py:16; basic/gsa.py:57-71; basic/gsa.py:73-87; basic/gsa.py:89-104) -/
def cGravitationalSearchAlgorithm : Class where
  bases := [.Algorithm]
  init := some {
    star := true
    params := [
      (.population_size, .v40), (.g0, .v2_467), (.epsilon, .v1em17)]
    body := [
      .call (.above .GravitationalSearchAlgorithm) .init [.arg .population_size] true [] true, .assign .g0 (.arg .g0),
      .assign .epsilon (.arg .epsilon)] }
  set := some {
    star := false
    params := [
      (.population_size, .v40), (.g0, .v2_467), (.epsilon, .v1em17)]
    body := [
      .call (.above .GravitationalSearchAlgorithm) .set [] false [(.population_size, .arg .population_size)] true, .assign .g0 (.arg .g0),
      .assign .epsilon (.arg .epsilon)] }
  get := some [
    .merge (.above .GravitationalSearchAlgorithm), .put .g0 .g0, .put .epsilon .epsilon]

/-- `GlowwormSwarmOptimization` (basic/gso.py:17; basic/gso.py:65-87; basic/gso.py:89-111; basic/gso.py:113-130) -/
def cGlowwormSwarmOptimization : Class where
  bases := [.Algorithm]
  init := some {
    star := true
    params := [
      (.population_size, .v25), (.l0, .v5), (.nt, .v5), (.rho, .v0_4), (.gamma, .v0_6), (.beta, .v0_08), (.s, .v0_03), (.distance, .euclidean)]
    body := [
      .call (.above .GlowwormSwarmOptimization) .init [.arg .population_size] true [] true, .assign .l0 (.arg .l0), .assign .nt (.arg .nt),
      .assign .rho (.arg .rho), .assign .gamma (.arg .gamma), .assign .beta (.arg .beta), .assign .s (.arg .s), .assign .distance (.arg .distance)] }
  set := some {
    star := false
    params := [
      (.population_size, .v25), (.l0, .v5), (.nt, .v5), (.rho, .v0_4), (.gamma, .v0_6), (.beta, .v0_08), (.s, .v0_03), (.distance, .euclidean)]
    body := [
      .call (.above .GlowwormSwarmOptimization) .set [] false [(.population_size, .arg .population_size)] true, .assign .l0 (.arg .l0),
      .assign .nt (.arg .nt), .assign .rho (.arg .rho), .assign .gamma (.arg .gamma), .assign .beta (.arg .beta), .assign .s (.arg .s),
      .assign .distance (.arg .distance)] }
  get := some [
    .merge (.above .GlowwormSwarmOptimization), .put .l0 .l0, .put .nt .nt, .put .rho .rho, .put .gamma .gamma, .put .beta .beta, .put .s .s,
    .put .distance .distance]

/-- `GlowwormSwarmOptimizationV1` (basic/gso.py:260) -/
def cGlowwormSwarmOptimizationV1 : Class where
  bases := [.GlowwormSwarmOptimization]

/-- `GlowwormSwarmOptimizationV2` (basic/gso.py:310; basic/gso.py:352-360; basic/gso.py:362-373) -/
def cGlowwormSwarmOptimizationV2 : Class where
  bases := [.GlowwormSwarmOptimization]
  init := some {
    star := true
    params := [
      (.alpha, .v0_2)]
    body := [
      .call (.above .GlowwormSwarmOptimizationV2) .init [] true [] true, .assign .alpha (.arg .alpha)] }
  set := some {
    star := false
    params := [
      (.alpha, .v0_2)]
    body := [
      .call (.above .GlowwormSwarmOptimizationV2) .set [] false [] true, .assign .alpha (.arg .alpha)] }

/-- `GlowwormSwarmOptimizationV3` (basic/gso.py:380; basic/gso.py:422-430; basic/gso.py:432-443) -/
def cGlowwormSwarmOptimizationV3 : Class where
  bases := [.GlowwormSwarmOptimization]
  init := some {
    star := true
    params := [
      (.beta1, .v0_2)]
    body := [
      .call (.above .GlowwormSwarmOptimizationV3) .init [] true [] true, .assign .beta1 (.arg .beta1)] }
  set := some {
    star := false
    params := [
      (.beta1, .v0_2)]
    body := [
      .call (.above .GlowwormSwarmOptimizationV3) .set [] false [] true, .assign .beta1 (.arg .beta1)] }

/-- `GreyWolfOptimizer` (basic/gwo.py:10) -/
def cGreyWolfOptimizer : Class where
  bases := [.Algorithm]

/-- `HarrisHawksOptimization` (basic/hho.py:16; basic/hho.py:45-54; basic/hho.py:69-81; basic/hho.py:83-94) -/
def cHarrisHawksOptimization : Class where
  bases := [.Algorithm]
  init := some {
    star := true
    params := [
      (.population_size, .v40), (.levy, .v0_01)]
    body := [
      .call (.above .HarrisHawksOptimization) .init [.arg .population_size] true [] true, .assign .levy (.arg .levy)] }
  set := some {
    star := false
    params := [
      (.population_size, .v40), (.levy, .v0_01)]
    body := [
      .call (.above .HarrisHawksOptimization) .set [] false [(.population_size, .arg .population_size)] true, .assign .levy (.arg .levy)] }
  get := some [
    .merge (.above .HarrisHawksOptimization), .put .levy .levy]

/-- `HarmonySearch` (basic/hs.py:15; basic/hs.py:59-72; basic/hs.py:74-90; basic/hs.py:92-100) -/
def cHarmonySearch : Class where
  bases := [.Algorithm]
  init := some {
    star := true
    params := [
      (.population_size, .v30), (.r_accept, .v0_7), (.r_pa, .v0_35), (.b_range, .v1_42)]
    body := [
      .call (.above .HarmonySearch) .init [.arg .population_size] true [] true, .assign .r_accept (.arg .r_accept), .assign .r_pa (.arg .r_pa),
      .assign .b_range (.arg .b_range)] }
  set := some {
    star := false
    params := [
      (.population_size, .v30), (.r_accept, .v0_7), (.r_pa, .v0_35), (.b_range, .v1_42)]
    body := [
      .call (.above .HarmonySearch) .set [] false [(.population_size, .arg .population_size)] true, .assign .r_accept (.arg .r_accept),
      .assign .r_pa (.arg .r_pa), .assign .b_range (.arg .b_range)] }
  get := some [
    .merge (.above .HarmonySearch), .put .r_accept .r_accept, .put .r_pa .r_pa, .put .b_range .b_range]

/-- `HarmonySearchV1` (basic/hs.py:174; basic/hs.py:217-227; basic/hs.py:229-241; basic/hs.py:243-250) -/
def cHarmonySearchV1 : Class where
  bases := [.HarmonySearch]
  init := some {
    star := true
    params := [
      (.bw_min, .v1), (.bw_max, .v2)]
    body := [
      .call (.above .HarmonySearchV1) .init [] true [] true, .assign .bw_min (.arg .bw_min), .assign .bw_max (.arg .bw_max)] }
  set := some {
    star := false
    params := [
      (.bw_min, .v1), (.bw_max, .v2)]
    body := [
      .call (.above .HarmonySearchV1) .set [] false [] true, .assign .bw_min (.arg .bw_min), .assign .bw_max (.arg .bw_max)] }
  get := some [
    .merge (.above .HarmonySearchV1), .put .bw_min .bw_min, .put .bw_max .bw_max]

/-- `KrillHerd` (basic/kh.py:16; basic/kh.py:71-104; basic/kh.py:106-139; basic/kh.py:141-161) -/
def cKrillHerd : Class where
  bases := [.Algorithm]
  init := some {
    star := true
    params := [
      (.population_size, .v50), (.n_max, .v0_01), (.foraging_speed, .v0_02), (.diffusion_speed, .v0_002), (.c_t, .v0_93), (.w_neighbor, .v0_42),
      (.w_foraging, .v0_38), (.d_s, .v2_63), (.max_neighbors, .v5), (.crossover_rate, .v0_2), (.mutation_rate, .v0_05)]
    body := [
      .call (.above .KrillHerd) .init [.arg .population_size] true [] true, .assign .n_max (.arg .n_max),
      .assign .foraging_speed (.arg .foraging_speed), .assign .diffusion_speed (.arg .diffusion_speed), .assign .c_t (.arg .c_t),
      .assign .w_neighbor (.arg .w_neighbor), .assign .w_foraging (.arg .w_foraging), .assign .d_s (.arg .d_s),
      .assign .max_neighbors (.arg .max_neighbors), .assign .cr (.arg .crossover_rate), .assign .mr (.arg .mutation_rate),
      .assign .epsilon (.const .np_finfo_float_eps)] }
  set := some {
    star := false
    params := [
      (.population_size, .v50), (.n_max, .v0_01), (.foraging_speed, .v0_02), (.diffusion_speed, .v0_002), (.c_t, .v0_93), (.w_neighbor, .v0_42),
      (.w_foraging, .v0_38), (.d_s, .v2_63), (.max_neighbors, .v5), (.crossover_rate, .v0_2), (.mutation_rate, .v0_05)]
    body := [
      .call (.above .KrillHerd) .set [] false [(.population_size, .arg .population_size)] true, .assign .n_max (.arg .n_max),
      .assign .foraging_speed (.arg .foraging_speed), .assign .diffusion_speed (.arg .diffusion_speed), .assign .c_t (.arg .c_t),
      .assign .w_neighbor (.arg .w_neighbor), .assign .w_foraging (.arg .w_foraging), .assign .d_s (.arg .d_s),
      .assign .max_neighbors (.arg .max_neighbors), .assign .cr (.arg .crossover_rate), .assign .mr (.arg .mutation_rate),
      .assign .epsilon (.const .np_finfo_float_eps)] }
  get := some [
    .merge (.named .Algorithm), .put .n_max .n_max, .put .foraging_speed .foraging_speed, .put .diffusion_speed .diffusion_speed, .put .c_t .c_t,
    .put .w_neighbor .w_neighbor, .put .w_foraging .w_foraging, .put .d_s .d_s, .put .max_neighbors .max_neighbors, .put .crossover_rate .cr,
    .put .mutation_rate .mr]

/-- `LionOptimizationAlgorithm` (basic/loa.py:80; basic/loa.py:139-185; basic/loa.py:187-232; basic/loa.py:234-253) -/
def cLionOptimizationAlgorithm : Class where
  bases := [.Algorithm]
  init := some {
    star := true
    params := [
      (.population_size, .v50), (.nomad_ratio, .v0_2), (.num_of_prides, .v5), (.female_ratio, .v0_8), (.roaming_factor, .v0_2),
      (.mating_factor, .v0_3), (.mutation_factor, .v0_2), (.immigration_factor, .v0_4)]
    body := [
      .call (.above .LionOptimizationAlgorithm) .init [.arg .population_size] true [(.individual_type, .pop .individual_type (.const .Lion)), (.initialization_function, .pop .initialization_function (.const .default_individual_init))] true,
      .assign .nomad_ratio (.arg .nomad_ratio), .assign .num_of_prides (.arg .num_of_prides), .assign .female_ratio (.arg .female_ratio),
      .assign .roaming_factor (.arg .roaming_factor), .assign .mating_factor (.arg .mating_factor), .assign .mutation_factor (.arg .mutation_factor),
      .assign .immigration_factor (.arg .immigration_factor)] }
  set := some {
    star := true
    params := [
      (.population_size, .v50), (.nomad_ratio, .v0_2), (.num_of_prides, .v5), (.female_ratio, .v0_8), (.roaming_factor, .v0_2),
      (.mating_factor, .v0_3), (.mutation_factor, .v0_2), (.immigration_factor, .v0_4)]
    body := [
      .call (.above .LionOptimizationAlgorithm) .set [.arg .population_size] true [(.individual_type, .const .Lion), (.initialization_function, .pop .initialization_function (.const .default_individual_init))] true,
      .assign .nomad_ratio (.arg .nomad_ratio), .assign .num_of_prides (.arg .num_of_prides), .assign .female_ratio (.arg .female_ratio),
      .assign .roaming_factor (.arg .roaming_factor), .assign .mating_factor (.arg .mating_factor), .assign .mutation_factor (.arg .mutation_factor),
      .assign .immigration_factor (.arg .immigration_factor)] }
  get := some [
    .merge (.above .LionOptimizationAlgorithm), .put .nomad_ratio .nomad_ratio, .put .num_of_prides .num_of_prides, .put .female_ratio .female_ratio,
    .put .roaming_factor .roaming_factor, .put .mating_factor .mating_factor, .put .mutation_factor .mutation_factor,
    .put .immigration_factor .immigration_factor]

/-- `MonarchButterflyOptimization` (basic/mbo.py:15; basic/mbo.py:61-79; basic/mbo.py:81-99; basic/mbo.py:101-117) -/
def cMonarchButterflyOptimization : Class where
  bases := [.Algorithm]
  init := some {
    star := true
    params := [
      (.population_size, .v20), (.partition, .v5_0_12_0), (.period, .v1_2)]
    body := [
      .call (.above .MonarchButterflyOptimization) .init [.arg .population_size] true [] true, .assign .partition (.arg .partition),
      .assign .period (.arg .period), .assign .keep (.const .v2), .assign .bar (.arg .partition),
      .assign .np1 (.op .int_np_ceil_mul (.arg .partition) (.arg .population_size)), .assign .np2 (.op .op_sub (.arg .population_size) (.attr .np1))] }
  set := some {
    star := false
    params := [
      (.population_size, .v20), (.partition, .v5_0_12_0), (.period, .v1_2)]
    body := [
      .call (.above .MonarchButterflyOptimization) .set [] false [(.population_size, .arg .population_size)] true,
      .assign .partition (.arg .partition), .assign .period (.arg .period), .assign .keep (.const .v2), .assign .bar (.arg .partition),
      .assign .np1 (.op .int_np_ceil_mul (.arg .partition) (.arg .population_size)), .assign .np2 (.op .op_sub (.arg .population_size) (.attr .np1))] }
  get := some [
    .merge (.named .Algorithm), .put .partition .partition, .put .period .period, .put .keep .keep, .put .bar .bar, .put .np1 .np1, .put .np2 .np2]

/-- `MothFlameOptimizer` (basic/mfo.py:15) -/
def cMothFlameOptimizer : Class where
  bases := [.Algorithm]

/-- `MonkeyKingEvolutionV1` (basic/mke.py:58; basic/mke.py:106-127; basic/mke.py:129-150; basic/mke.py:152-169) -/
def cMonkeyKingEvolutionV1 : Class where
  bases := [.Algorithm]
  init := some {
    star := true
    params := [
      (.population_size, .v40), (.fluctuation_coeff, .v0_7), (.population_rate, .v0_3), (.c, .v3), (.fc, .v0_5)]
    body := [
      .call (.above .MonkeyKingEvolutionV1) .init [.arg .population_size] true [(.individual_type, .pop .individual_type (.const .MkeSolution)), (.initialization_function, .pop .initialization_function (.const .default_individual_init))] true,
      .assign .fluctuation_coeff (.arg .fluctuation_coeff), .assign .population_rate (.arg .population_rate), .assign .c (.arg .c),
      .assign .fc (.arg .fc)] }
  set := some {
    star := false
    params := [
      (.population_size, .v40), (.fluctuation_coeff, .v0_7), (.population_rate, .v0_3), (.c, .v3), (.fc, .v0_5)]
    body := [
      .call (.above .MonkeyKingEvolutionV1) .set [] false [(.population_size, .arg .population_size), (.individual_type, .pop .individual_type (.const .MkeSolution)), (.initialization_function, .pop .initialization_function (.const .default_individual_init))] true,
      .assign .fluctuation_coeff (.arg .fluctuation_coeff), .assign .population_rate (.arg .population_rate), .assign .c (.arg .c),
      .assign .fc (.arg .fc)] }
  get := some [
    .merge (.named .Algorithm), .put .fluctuation_coeff .fluctuation_coeff, .put .population_rate .population_rate, .put .c .c, .put .fc .fc]

/-- `MonkeyKingEvolutionV2` (basic/mke.py:299) -/
def cMonkeyKingEvolutionV2 : Class where
  bases := [.MonkeyKingEvolutionV1]

/-- `MonkeyKingEvolutionV3` (basic/mke.py:400; basic/mke.py:444-448; basic/mke.py:450-459) -/
def cMonkeyKingEvolutionV3 : Class where
  bases := [.MonkeyKingEvolutionV1]
  init := some {
    star := true
    params := [
]
    body := [
      .call (.above .MonkeyKingEvolutionV3) .init [] true [(.individual_type, .pop .individual_type (.const .None)), (.initialization_function, .pop .initialization_function (.const .default_numpy_init))] true] }
  set := some {
    star := false
    params := [
]
    body := [
      .call (.above .MonkeyKingEvolutionV3) .set [] false [(.individual_type, .pop .individual_type (.const .None)), (.initialization_function, .pop .initialization_function (.const .default_numpy_init))] true] }

/-- `MantisSearchAlgorithm` (basic/mshoa.py:18; basic/mshoa.py:65-84; basic/mshoa.py:86-105; basic/mshoa.py:107-124) -/
def cMantisSearchAlgorithm : Class where
  bases := [.Algorithm]
  init := some {
    star := true
    params := [
      (.population_size, .v50), (.k_value, .v0_3), (.use_reflection, .True), (.normalize_space, .False), (.debug_pti, .False)]
    body := [
      .call (.above .MantisSearchAlgorithm) .init [.arg .population_size] true [] true, .assign .k_value (.arg .k_value),
      .assign .use_reflection (.arg .use_reflection), .assign .normalize_space (.arg .normalize_space), .assign .debug_pti (.arg .debug_pti)] }
  set := some {
    star := true
    params := [
      (.population_size, .v50), (.k_value, .v0_3), (.use_reflection, .True), (.normalize_space, .False), (.debug_pti, .False)]
    body := [
      .call (.above .MantisSearchAlgorithm) .set [] true [(.population_size, .arg .population_size)] true, .assign .k_value (.arg .k_value),
      .assign .use_reflection (.arg .use_reflection), .assign .normalize_space (.arg .normalize_space), .assign .debug_pti (.arg .debug_pti)] }
  get := some [
    .merge (.above .MantisSearchAlgorithm), .put .k_value .k_value, .put .use_reflection .use_reflection, .put .normalize_space .normalize_space,
    .put .debug_pti .debug_pti]

/-- `ParticleSwarmAlgorithm` (basic/pso.py:23; basic/pso.py:70-93; basic/pso.py:95-118; basic/pso.py:120-139) -/
def cParticleSwarmAlgorithm : Class where
  bases := [.Algorithm]
  init := some {
    star := true
    params := [
      (.population_size, .v25), (.c1, .v2), (.c2, .v2), (.w, .v0_7), (.min_velocity, .vm1_5), (.max_velocity, .v1_5), (.repair, .reflect)]
    body := [
      .call (.above .ParticleSwarmAlgorithm) .init [.arg .population_size] true [] true, .assign .c1 (.arg .c1), .assign .c2 (.arg .c2),
      .assign .w (.arg .w), .assign .min_velocity (.arg .min_velocity), .assign .max_velocity (.arg .max_velocity), .assign .repair (.arg .repair)] }
  set := some {
    star := false
    params := [
      (.population_size, .v25), (.c1, .v2), (.c2, .v2), (.w, .v0_7), (.min_velocity, .vm1_5), (.max_velocity, .v1_5), (.repair, .reflect)]
    body := [
      .call (.above .ParticleSwarmAlgorithm) .set [] false [(.population_size, .arg .population_size)] true, .assign .c1 (.arg .c1),
      .assign .c2 (.arg .c2), .assign .w (.arg .w), .assign .min_velocity (.arg .min_velocity), .assign .max_velocity (.arg .max_velocity),
      .assign .repair (.arg .repair)] }
  get := some [
    .merge (.above .ParticleSwarmAlgorithm), .put .c1 .c1, .put .c2 .c2, .put .w .w, .put .min_velocity .min_velocity,
    .put .max_velocity .max_velocity, .put .repair .repair]

/-- `ParticleSwarmOptimization` (basic/pso.py:261; basic/pso.py:302-307; basic/pso.py:309-317; basic/pso.py:319-330) -/
def cParticleSwarmOptimization : Class where
  bases := [.ParticleSwarmAlgorithm]
  init := some {
    star := true
    params := [
]
    body := [
      .call (.above .ParticleSwarmOptimization) .init [] true [] true, .assign .w (.const .v1), .assign .min_velocity (.const .neg_inf),
      .assign .max_velocity (.const .pos_inf)] }
  set := some {
    star := false
    params := [
]
    body := [
      .drop .w, .drop .min_velocity, .drop .max_velocity,
      .call (.above .ParticleSwarmOptimization) .set [] false [(.w, .const .v1), (.min_velocity, .const .neg_inf), (.max_velocity, .const .pos_inf)] true] }
  get := some [
    .merge (.above .ParticleSwarmOptimization), .remove .w, .remove .min_velocity, .remove .max_velocity]

/-- `OppositionVelocityClampingParticleSwarmOptimization` (basic/pso.py:333; basic/pso.py:377-397; basic/pso.py:399-419; basic/pso.py:421-436) -/
def cOppositionVelocityClampingParticleSwarmOptimization : Class where
  bases := [.ParticleSwarmAlgorithm]
  init := some {
    star := true
    params := [
      (.p0, .v0_3), (.w_min, .v0_4), (.w_max, .v0_9), (.sigma, .v0_1), (.c1, .v1_49612), (.c2, .v1_49612)]
    body := [
      .drop .w,
      .call (.above .OppositionVelocityClampingParticleSwarmOptimization) .init [] true [(.w, .arg .w_max), (.c1, .arg .c1), (.c2, .arg .c2)] true,
      .assign .p0 (.arg .p0), .assign .w_min (.arg .w_min), .assign .w_max (.arg .w_max), .assign .sigma (.arg .sigma)] }
  set := some {
    star := false
    params := [
      (.p0, .v0_3), (.w_min, .v0_4), (.w_max, .v0_9), (.sigma, .v0_1), (.c1, .v1_49612), (.c2, .v1_49612)]
    body := [
      .drop .w,
      .call (.above .OppositionVelocityClampingParticleSwarmOptimization) .set [] false [(.w, .arg .w_max), (.c1, .arg .c1), (.c2, .arg .c2)] true,
      .assign .p0 (.arg .p0), .assign .w_min (.arg .w_min), .assign .w_max (.arg .w_max), .assign .sigma (.arg .sigma)] }
  get := some [
    .merge (.named .ParticleSwarmAlgorithm), .remove .min_velocity, .remove .max_velocity, .put .p0 .p0, .put .w_min .w_min, .put .w_max .w_max,
    .put .sigma .sigma]

/-- `CenterParticleSwarmOptimization` (basic/pso.py:553; basic/pso.py:591-594; basic/pso.py:596-607; basic/pso.py:609-621) -/
def cCenterParticleSwarmOptimization : Class where
  bases := [.ParticleSwarmAlgorithm]
  init := some {
    star := true
    params := [
]
    body := [
      .drop .min_velocity, .drop .max_velocity,
      .call (.above .CenterParticleSwarmOptimization) .init [] true [(.min_velocity, .const .neg_inf), (.max_velocity, .const .pos_inf)] true] }
  set := some {
    star := false
    params := [
]
    body := [
      .drop .min_velocity, .drop .max_velocity,
      .call (.above .CenterParticleSwarmOptimization) .set [] false [(.min_velocity, .const .neg_inf), (.max_velocity, .const .pos_inf)] true] }
  get := some [
    .merge (.above .CenterParticleSwarmOptimization), .remove .min_velocity, .remove .max_velocity]

/-- `MutatedParticleSwarmOptimization` (basic/pso.py:654; basic/pso.py:695-699; basic/pso.py:701-714; basic/pso.py:716-729) -/
def cMutatedParticleSwarmOptimization : Class where
  bases := [.ParticleSwarmAlgorithm]
  init := some {
    star := true
    params := [
      (.num_mutations, .v10)]
    body := [
      .drop .min_velocity, .drop .max_velocity,
      .call (.above .MutatedParticleSwarmOptimization) .init [] true [(.min_velocity, .const .neg_inf), (.max_velocity, .const .pos_inf)] true,
      .assign .num_mutations (.arg .num_mutations)] }
  set := some {
    star := false
    params := [
      (.num_mutations, .v10)]
    body := [
      .drop .min_velocity, .drop .max_velocity,
      .call (.named .ParticleSwarmAlgorithm) .set [] false [(.min_velocity, .const .neg_inf), (.max_velocity, .const .pos_inf)] true,
      .assign .num_mutations (.arg .num_mutations)] }
  get := some [
    .merge (.named .ParticleSwarmAlgorithm), .remove .min_velocity, .remove .max_velocity, .put .num_mutations .num_mutations]

/-- `MutatedCenterParticleSwarmOptimization` (basic/pso.py:766; basic/pso.py:807-811; basic/pso.py:813-826; basic/pso.py:828-840) -/
def cMutatedCenterParticleSwarmOptimization : Class where
  bases := [.CenterParticleSwarmOptimization]
  init := some {
    star := true
    params := [
      (.num_mutations, .v10)]
    body := [
      .drop .min_velocity, .drop .max_velocity,
      .call (.above .MutatedCenterParticleSwarmOptimization) .init [] true [(.min_velocity, .const .neg_inf), (.max_velocity, .const .pos_inf)] true,
      .assign .num_mutations (.arg .num_mutations)] }
  set := some {
    star := false
    params := [
      (.num_mutations, .v10)]
    body := [
      .drop .min_velocity, .drop .max_velocity,
      .call (.named .ParticleSwarmAlgorithm) .set [] false [(.min_velocity, .const .neg_inf), (.max_velocity, .const .pos_inf)] true,
      .assign .num_mutations (.arg .num_mutations)] }
  get := some [
    .merge (.named .CenterParticleSwarmOptimization), .put .num_mutations .num_mutations]

/-- `MutatedCenterUnifiedParticleSwarmOptimization` (basic/pso.py:877) -/
def cMutatedCenterUnifiedParticleSwarmOptimization : Class where
  bases := [.MutatedCenterParticleSwarmOptimization]

/-- `ComprehensiveLearningParticleSwarmOptimizer` (basic/pso.py:943; basic/pso.py:990-996; basic/pso.py:998-1016; basic/pso.py:1018-1035) -/
def cComprehensiveLearningParticleSwarmOptimizer : Class where
  bases := [.ParticleSwarmAlgorithm]
  init := some {
    star := true
    params := [
      (.m, .v10), (.w0, .v0_9), (.w1, .v0_4), (.c, .v1_49445)]
    body := [
      .call (.above .ComprehensiveLearningParticleSwarmOptimizer) .init [] true [] true, .assign .m (.arg .m), .assign .w0 (.arg .w0),
      .assign .w1 (.arg .w1), .assign .c (.arg .c)] }
  set := some {
    star := false
    params := [
      (.m, .v10), (.w0, .v0_9), (.w1, .v0_4), (.c, .v1_49445)]
    body := [
      .call (.named .ParticleSwarmAlgorithm) .set [] false [] true, .assign .m (.arg .m), .assign .w0 (.arg .w0), .assign .w1 (.arg .w1),
      .assign .c (.arg .c)] }
  get := some [
    .merge (.named .ParticleSwarmAlgorithm), .put .m .m, .put .w0 .w0, .put .w1 .w1, .put .c .c]

/-- `SineCosineAlgorithm` (basic/sca.py:15; basic/sca.py:62-78; basic/sca.py:80-96; basic/sca.py:98-114) -/
def cSineCosineAlgorithm : Class where
  bases := [.Algorithm]
  init := some {
    star := true
    params := [
      (.population_size, .v25), (.a, .v3), (.r_min, .v0), (.r_max, .v2)]
    body := [
      .call (.above .SineCosineAlgorithm) .init [.arg .population_size] true [] true, .assign .a (.arg .a), .assign .r_min (.arg .r_min),
      .assign .r_max (.arg .r_max)] }
  set := some {
    star := false
    params := [
      (.population_size, .v25), (.a, .v3), (.r_min, .v0), (.r_max, .v2)]
    body := [
      .call (.above .SineCosineAlgorithm) .set [] false [(.population_size, .arg .population_size)] true, .assign .a (.arg .a),
      .assign .r_min (.arg .r_min), .assign .r_max (.arg .r_max)] }
  get := some [
    .merge (.above .SineCosineAlgorithm), .put .a .a, .put .r_min .r_min, .put .r_max .r_max]

/-- `HybridBatAlgorithm` (modified/hba.py:14; modified/hba.py:57-72; modified/hba.py:74-89; modified/hba.py:91-104) -/
def cHybridBatAlgorithm : Class where
  bases := [.BatAlgorithm]
  init := some {
    star := true
    params := [
      (.differential_weight, .v0_5), (.crossover_probability, .v0_9), (.strategy, .cross_best1)]
    body := [
      .call (.above .HybridBatAlgorithm) .init [] true [] true, .assign .differential_weight (.arg .differential_weight),
      .assign .crossover_probability (.arg .crossover_probability), .assign .strategy (.arg .strategy)] }
  set := some {
    star := false
    params := [
      (.differential_weight, .v0_5), (.crossover_probability, .v0_9), (.strategy, .cross_best1)]
    body := [
      .call (.above .HybridBatAlgorithm) .set [] false [] true, .assign .differential_weight (.arg .differential_weight),
      .assign .crossover_probability (.arg .crossover_probability), .assign .strategy (.arg .strategy)] }
  get := some [
    .merge (.above .HybridBatAlgorithm), .put .differential_weight .differential_weight, .put .crossover_probability .crossover_probability,
    .put .strategy .strategy]

/-- `DifferentialEvolutionMTS` (modified/hde.py:55; modified/hde.py:94-96; modified/hde.py:98-107; modified/hde.py:109-113) -/
def cDifferentialEvolutionMTS : Class where
  bases := [.DifferentialEvolution, .MultipleTrajectorySearch]
  init := some {
    star := true
    params := [
      (.population_size, .v40)]
    body := [
      .call (.above .DifferentialEvolutionMTS) .init [.arg .population_size] true [(.individual_type, .pop .individual_type (.const .MtsIndividual))] true] }
  set := some {
    star := false
    params := [
]
    body := [
      .call (.named .MultipleTrajectorySearch) .set [] false [] true,
      .call (.named .DifferentialEvolution) .set [] false [(.individual_type, .pop .individual_type (.const .MtsIndividual))] true] }
  get := some [
    .merge (.named .DifferentialEvolution), .merge (.named .MultipleTrajectorySearch)]

/-- `DifferentialEvolutionMTSv1` (modified/hde.py:139; modified/hde.py:177-179; modified/hde.py:181-188) -/
def cDifferentialEvolutionMTSv1 : Class where
  bases := [.DifferentialEvolutionMTS]
  init := some {
    star := true
    params := [
]
    body := [
      .call (.above .DifferentialEvolutionMTSv1) .init [] true [(.local_searches, .const .mts_ls1v1_mts_ls2_mts_ls3v1)] true] }
  set := some {
    star := false
    params := [
]
    body := [
      .call (.above .DifferentialEvolutionMTSv1) .set [] false [(.local_searches, .const .mts_ls1v1_mts_ls2_mts_ls3v1)] true] }

/-- `DynNpDifferentialEvolutionMTS` (modified/hde.py:191; modified/hde.py:230-232; modified/hde.py:234-247; modified/hde.py:249-258) -/
def cDynNpDifferentialEvolutionMTS : Class where
  bases := [.DifferentialEvolutionMTS, .DynNpDifferentialEvolution]
  init := some {
    star := true
    params := [
]
    body := [
      .call (.above .DynNpDifferentialEvolutionMTS) .init [] true [] true] }
  set := some {
    star := false
    params := [
      (.p_max, .v10), (.rp, .v3)]
    body := [
      .call (.named .DynNpDifferentialEvolution) .set [] false [(.p_max, .arg .p_max), (.rp, .arg .rp)] true,
      .call (.named .DifferentialEvolutionMTS) .set [] false [] true] }
  get := some [
    .merge (.named .DynNpDifferentialEvolution), .merge (.named .DifferentialEvolutionMTS)]

/-- `DynNpDifferentialEvolutionMTSv1` (modified/hde.py:266; modified/hde.py:304-306; modified/hde.py:308-315) -/
def cDynNpDifferentialEvolutionMTSv1 : Class where
  bases := [.DynNpDifferentialEvolutionMTS]
  init := some {
    star := true
    params := [
]
    body := [
      .call (.above .DynNpDifferentialEvolutionMTSv1) .init [] true [(.local_searches, .const .mts_ls1v1_mts_ls2_mts_ls3v1)] true] }
  set := some {
    star := false
    params := [
]
    body := [
      .call (.named .DynNpDifferentialEvolutionMTS) .set [] false [(.local_searches, .const .mts_ls1v1_mts_ls2_mts_ls3v1)] true] }

/-- `MultiStrategyDifferentialEvolutionMTS` (modified/hde.py:318; modified/hde.py:357-359; modified/hde.py:361-370; modified/hde.py:372-381) -/
def cMultiStrategyDifferentialEvolutionMTS : Class where
  bases := [.DifferentialEvolutionMTS, .MultiStrategyDifferentialEvolution]
  init := some {
    star := true
    params := [
]
    body := [
      .call (.above .MultiStrategyDifferentialEvolutionMTS) .init [] true [(.individual_type, .pop .individual_type (.const .MtsIndividual))] true] }
  set := some {
    star := false
    params := [
]
    body := [
      .call (.named .DifferentialEvolutionMTS) .set [] false [] true,
      .call (.named .MultiStrategyDifferentialEvolution) .set [] false [(.individual_type, .pop .individual_type (.const .MtsIndividual))] true] }
  get := some [
    .merge (.named .DifferentialEvolutionMTS), .merge (.named .MultiStrategyDifferentialEvolution)]

/-- `MultiStrategyDifferentialEvolutionMTSv1` (modified/hde.py:398; modified/hde.py:436-438; modified/hde.py:440-447) -/
def cMultiStrategyDifferentialEvolutionMTSv1 : Class where
  bases := [.MultiStrategyDifferentialEvolutionMTS]
  init := some {
    star := true
    params := [
]
    body := [
      .call (.above .MultiStrategyDifferentialEvolutionMTSv1) .init [] true [(.local_searches, .const .mts_ls1v1_mts_ls2_mts_ls3v1)] true] }
  set := some {
    star := false
    params := [
]
    body := [
      .call (.named .MultiStrategyDifferentialEvolutionMTS) .set [] false [(.local_searches, .const .mts_ls1v1_mts_ls2_mts_ls3v1)] true] }

/-- `DynNpMultiStrategyDifferentialEvolutionMTS` (modified/hde.py:450; modified/hde.py:489-491; modified/hde.py:493-502; modified/hde.py:504-513) -/
def cDynNpMultiStrategyDifferentialEvolutionMTS : Class where
  bases := [.MultiStrategyDifferentialEvolutionMTS, .DynNpDifferentialEvolutionMTS]
  init := some {
    star := true
    params := [
]
    body := [
      .call (.above .DynNpMultiStrategyDifferentialEvolutionMTS) .init [] true [] true] }
  set := some {
    star := false
    params := [
]
    body := [
      .call (.named .DynNpDifferentialEvolutionMTS) .set [] false [] true,
      .call (.named .MultiStrategyDifferentialEvolutionMTS) .set [] false [] true] }
  get := some [
    .merge (.named .DynNpDifferentialEvolutionMTS), .merge (.named .MultiStrategyDifferentialEvolutionMTS)]

/-- `DynNpMultiStrategyDifferentialEvolutionMTSv1` (modified/hde.py:516; modified/hde.py:554-556; modified/hde.py:558-565) -/
def cDynNpMultiStrategyDifferentialEvolutionMTSv1 : Class where
  bases := [.DynNpMultiStrategyDifferentialEvolutionMTS]
  init := some {
    star := true
    params := [
]
    body := [
      .call (.above .DynNpMultiStrategyDifferentialEvolutionMTSv1) .init [] true [(.local_searches, .const .mts_ls1v1_mts_ls2_mts_ls3v1)] true] }
  set := some {
    star := false
    params := [
]
    body := [
      .call (.named .DynNpMultiStrategyDifferentialEvolutionMTS) .set [] false [(.local_searches, .const .mts_ls1v1_mts_ls2_mts_ls3v1)] true] }

/-- `HybridSelfAdaptiveBatAlgorithm` (modified/hsaba.py:14; modified/hsaba.py:61-76; modified/hsaba.py:78-93; modified/hsaba.py:95-110) -/
def cHybridSelfAdaptiveBatAlgorithm : Class where
  bases := [.SelfAdaptiveBatAlgorithm]
  init := some {
    star := true
    params := [
      (.differential_weight, .v0_9), (.crossover_probability, .v0_85), (.strategy, .cross_best1)]
    body := [
      .call (.above .HybridSelfAdaptiveBatAlgorithm) .init [] true [] true, .assign .differential_weight (.arg .differential_weight),
      .assign .crossover_probability (.arg .crossover_probability), .assign .strategy (.arg .strategy)] }
  set := some {
    star := false
    params := [
      (.differential_weight, .v0_9), (.crossover_probability, .v0_85), (.strategy, .cross_best1)]
    body := [
      .call (.above .HybridSelfAdaptiveBatAlgorithm) .set [] false [] true, .assign .differential_weight (.arg .differential_weight),
      .assign .crossover_probability (.arg .crossover_probability), .assign .strategy (.arg .strategy)] }
  get := some [
    .merge (.above .HybridSelfAdaptiveBatAlgorithm), .put .differential_weight .differential_weight,
    .put .crossover_probability .crossover_probability]

/-- `ImprovedLpsrSuccessHistoryAdaptiveDifferentialEvolution` (modified/ilshade.py:47; modified/ilshade.py:91-109; modified/ilshade.py:111-130; modified/ilshade.py:132-146) -/
def cImprovedLpsrSuccessHistoryAdaptiveDifferentialEvolution : Class where
  bases := [.SuccessHistoryAdaptiveDifferentialEvolution]
  init := some {
    star := true
    params := [
      (.population_size, .v360), (.extern_arc_rate, .v2_6), (.pbest_start, .v0_2), (.pbest_end, .v0_1), (.hist_mem_size, .v6)]
    body := [
      .call (.above .SuccessHistoryAdaptiveDifferentialEvolution) .init [.arg .population_size] true [(.individual_type, .pop .individual_type (.const .SolutionILSHADE))] true,
      .assign .extern_arc_rate (.arg .extern_arc_rate), .assign .pbest_start (.arg .pbest_start), .assign .pbest_end (.arg .pbest_end),
      .assign .hist_mem_size (.arg .hist_mem_size)] }
  set := some {
    star := false
    params := [
      (.population_size, .v360), (.extern_arc_rate, .v2_6), (.pbest_start, .v0_2), (.pbest_end, .v0_1), (.hist_mem_size, .v6)]
    body := [
      .call (.above .SuccessHistoryAdaptiveDifferentialEvolution) .set [] false [(.population_size, .arg .population_size), (.individual_type, .pop .individual_type (.const .SolutionILSHADE))] true,
      .assign .extern_arc_rate (.arg .extern_arc_rate), .assign .pbest_start (.arg .pbest_start), .assign .pbest_end (.arg .pbest_end),
      .assign .hist_mem_size (.arg .hist_mem_size)] }
  get := some [
    .merge (.above .SuccessHistoryAdaptiveDifferentialEvolution), .put .extern_arc_rate .extern_arc_rate, .put .pbest_start .pbest_start,
    .put .pbest_end .pbest_end, .put .hist_mem_size .hist_mem_size]

/-- `SelfAdaptiveDifferentialEvolution` (modified/jde.py:48; modified/jde.py:93-110; modified/jde.py:112-129; modified/jde.py:131-145) -/
def cSelfAdaptiveDifferentialEvolution : Class where
  bases := [.DifferentialEvolution]
  init := some {
    star := true
    params := [
      (.f_lower, .v0), (.f_upper, .v1), (.tao1, .v0_4), (.tao2, .v0_2)]
    body := [
      .call (.above .SelfAdaptiveDifferentialEvolution) .init [] true [(.individual_type, .pop .individual_type (.const .SolutionJDE))] true,
      .assign .f_lower (.arg .f_lower), .assign .f_upper (.arg .f_upper), .assign .tao1 (.arg .tao1), .assign .tao2 (.arg .tao2)] }
  set := some {
    star := false
    params := [
      (.f_lower, .v0), (.f_upper, .v1), (.tao1, .v0_4), (.tao2, .v0_2)]
    body := [
      .call (.above .SelfAdaptiveDifferentialEvolution) .set [] false [(.individual_type, .pop .individual_type (.const .SolutionJDE))] true,
      .assign .f_lower (.arg .f_lower), .assign .f_upper (.arg .f_upper), .assign .tao1 (.arg .tao1), .assign .tao2 (.arg .tao2)] }
  get := some [
    .merge (.named .DifferentialEvolution), .put .f_lower .f_lower, .put .f_upper .f_upper, .put .tao1 .tao1, .put .tao2 .tao2]

/-- `MultiStrategySelfAdaptiveDifferentialEvolution` (modified/jde.py:181; modified/jde.py:206-218; modified/jde.py:220-232; modified/jde.py:234-243) -/
def cMultiStrategySelfAdaptiveDifferentialEvolution : Class where
  bases := [.SelfAdaptiveDifferentialEvolution]
  init := some {
    star := true
    params := [
      (.strategies, .cross_curr2rand1_cross_curr2best1_cross_rand1_cross_best1_cross_best2)]
    body := [
      .call (.above .MultiStrategySelfAdaptiveDifferentialEvolution) .init [] true [(.strategy, .pop .strategy (.const .multi_mutations))] true,
      .assign .strategies (.arg .strategies)] }
  set := some {
    star := false
    params := [
      (.strategies, .cross_curr2rand1_cross_curr2best1_cross_rand1_cross_best1_cross_best2)]
    body := [
      .call (.above .MultiStrategySelfAdaptiveDifferentialEvolution) .set [] false [(.strategy, .pop .strategy (.const .multi_mutations))] true,
      .assign .strategies (.arg .strategies)] }
  get := some [
    .merge (.above .MultiStrategySelfAdaptiveDifferentialEvolution), .put .strategies .strategies]

/-- `ParameterFreeBatAlgorithm` (modified/plba.py:15; modified/plba.py:57-61; modified/plba.py:63-72) -/
def cParameterFreeBatAlgorithm : Class where
  bases := [.Algorithm]
  init := some {
    star := true
    params := [
]
    body := [
      .call (.above .ParameterFreeBatAlgorithm) .init [.const .v80] true [] true, .assign .loudness (.const .v0_9),
      .assign .pulse_rate (.const .v0_1)] }
  set := some {
    star := false
    params := [
]
    body := [
      .call (.above .ParameterFreeBatAlgorithm) .set [] false [(.population_size, .const .v80)] true, .assign .loudness (.const .v0_9),
      .assign .pulse_rate (.const .v0_1)] }

/-- `AdaptiveBatAlgorithm` (modified/saba.py:15; modified/saba.py:58-81; modified/saba.py:83-106; modified/saba.py:108-127) -/
def cAdaptiveBatAlgorithm : Class where
  bases := [.Algorithm]
  init := some {
    star := true
    params := [
      (.population_size, .v100), (.starting_loudness, .v0_5), (.epsilon, .v0_001), (.alpha, .v1), (.pulse_rate, .v0_5), (.min_frequency, .v0),
      (.max_frequency, .v2)]
    body := [
      .call (.above .AdaptiveBatAlgorithm) .init [.arg .population_size] true [] true, .assign .starting_loudness (.arg .starting_loudness),
      .assign .epsilon (.arg .epsilon), .assign .alpha (.arg .alpha), .assign .pulse_rate (.arg .pulse_rate),
      .assign .min_frequency (.arg .min_frequency), .assign .max_frequency (.arg .max_frequency)] }
  set := some {
    star := false
    params := [
      (.population_size, .v100), (.starting_loudness, .v0_5), (.epsilon, .v0_001), (.alpha, .v1), (.pulse_rate, .v0_5), (.min_frequency, .v0),
      (.max_frequency, .v2)]
    body := [
      .call (.above .AdaptiveBatAlgorithm) .set [] false [(.population_size, .arg .population_size)] true,
      .assign .starting_loudness (.arg .starting_loudness), .assign .epsilon (.arg .epsilon), .assign .alpha (.arg .alpha),
      .assign .pulse_rate (.arg .pulse_rate), .assign .min_frequency (.arg .min_frequency), .assign .max_frequency (.arg .max_frequency)] }
  get := some [
    .merge (.above .AdaptiveBatAlgorithm), .put .starting_loudness .starting_loudness, .put .epsilon .epsilon, .put .alpha .alpha,
    .put .pulse_rate .pulse_rate, .put .min_frequency .min_frequency, .put .max_frequency .max_frequency]

/-- `SelfAdaptiveBatAlgorithm` (modified/saba.py:218; modified/saba.py:265-287; modified/saba.py:289-310; modified/saba.py:312-331) -/
def cSelfAdaptiveBatAlgorithm : Class where
  bases := [.AdaptiveBatAlgorithm]
  init := some {
    star := true
    params := [
      (.min_loudness, .v0_9), (.max_loudness, .v1), (.min_pulse_rate, .v0_001), (.max_pulse_rate, .v0_1), (.tao_1, .v0_1), (.tao_2, .v0_1)]
    body := [
      .call (.above .SelfAdaptiveBatAlgorithm) .init [] true [] true, .assign .min_loudness (.arg .min_loudness),
      .assign .max_loudness (.arg .max_loudness), .assign .min_pulse_rate (.arg .min_pulse_rate), .assign .max_pulse_rate (.arg .max_pulse_rate),
      .assign .tao_1 (.arg .tao_1), .assign .tao_2 (.arg .tao_2)] }
  set := some {
    star := false
    params := [
      (.min_loudness, .v0_9), (.max_loudness, .v1), (.min_pulse_rate, .v0_001), (.max_pulse_rate, .v0_1), (.tao_1, .v0_1), (.tao_2, .v0_1)]
    body := [
      .call (.above .SelfAdaptiveBatAlgorithm) .set [] false [] true, .assign .min_loudness (.arg .min_loudness),
      .assign .max_loudness (.arg .max_loudness), .assign .min_pulse_rate (.arg .min_pulse_rate), .assign .max_pulse_rate (.arg .max_pulse_rate),
      .assign .tao_1 (.arg .tao_1), .assign .tao_2 (.arg .tao_2)] }
  get := some [
    .merge (.named .AdaptiveBatAlgorithm), .put .min_loudness .min_loudness, .put .max_loudness .max_loudness, .put .min_pulse_rate .min_pulse_rate,
    .put .max_pulse_rate .max_pulse_rate, .put .tao_1 .tao_1, .put .tao_2 .tao_2]

/-- `SuccessHistoryAdaptiveDifferentialEvolution` (modified/shade.py:125; modified/shade.py:169-185; modified/shade.py:187-204; modified/shade.py:206-219) -/
def cSuccessHistoryAdaptiveDifferentialEvolution : Class where
  bases := [.DifferentialEvolution]
  init := some {
    star := true
    params := [
      (.population_size, .v540), (.extern_arc_rate, .v2_6), (.pbest_factor, .v0_11), (.hist_mem_size, .v6)]
    body := [
      .call (.above .SuccessHistoryAdaptiveDifferentialEvolution) .init [.arg .population_size] true [(.individual_type, .pop .individual_type (.const .SolutionSHADE))] true,
      .assign .extern_arc_rate (.arg .extern_arc_rate), .assign .pbest_factor (.arg .pbest_factor), .assign .hist_mem_size (.arg .hist_mem_size)] }
  set := some {
    star := false
    params := [
      (.population_size, .v540), (.extern_arc_rate, .v2_6), (.pbest_factor, .v0_11), (.hist_mem_size, .v6)]
    body := [
      .call (.above .SuccessHistoryAdaptiveDifferentialEvolution) .set [] false [(.population_size, .arg .population_size), (.individual_type, .pop .individual_type (.const .SolutionSHADE))] true,
      .assign .extern_arc_rate (.arg .extern_arc_rate), .assign .pbest_factor (.arg .pbest_factor), .assign .hist_mem_size (.arg .hist_mem_size)] }
  get := some [
    .merge (.named .DifferentialEvolution), .put .extern_arc_rate .extern_arc_rate, .put .pbest_factor .pbest_factor,
    .put .hist_mem_size .hist_mem_size]

/-- `LpsrSuccessHistoryAdaptiveDifferentialEvolution` (modified/shade.py:463) -/
def cLpsrSuccessHistoryAdaptiveDifferentialEvolution : Class where
  bases := [.SuccessHistoryAdaptiveDifferentialEvolution]

/-- `AnarchicSocietyOptimization` (other/aso.py:224; other/aso.py:275-282; other/aso.py:324-357; other/aso.py:359-378) -/
def cAnarchicSocietyOptimization : Class where
  bases := [.Algorithm]
  init := some {
    star := true
    params := [
      (.population_size, .v43), (.alpha, .t1_0_83), (.gamma, .t1_17_0_56), (.theta, .t0_932_0_832), (.d, .euclidean), (.dn, .euclidean), (.nl, .v1),
      (.f, .v1_2), (.cr, .v0_25), (.combination, .elitism)]
    body := [
      .call (.above .AnarchicSocietyOptimization) .init [] true [(.population_size, .arg .population_size)] true,
      .call .own .set [] false [(.population_size, .arg .population_size), (.alpha, .arg .alpha), (.gamma, .arg .gamma), (.theta, .arg .theta), (.d, .arg .d), (.dn, .arg .dn), (.nl, .arg .nl), (.f, .arg .f), (.cr, .arg .cr), (.combination, .arg .combination)] true] }
  set := some {
    star := true
    params := [
      (.population_size, .v43), (.alpha, .t1_0_83), (.gamma, .t1_17_0_56), (.theta, .t0_932_0_832), (.d, .euclidean), (.dn, .euclidean), (.nl, .v1),
      (.f, .v1_2), (.cr, .v0_25), (.combination, .elitism)]
    body := [
      .call (.above .AnarchicSocietyOptimization) .set [] true [(.population_size, .arg .population_size)] true, .assign .alpha (.arg .alpha),
      .assign .gamma (.arg .gamma), .assign .theta (.arg .theta), .assign .d (.arg .d), .assign .dn (.arg .dn), .assign .nl (.arg .nl),
      .assign .f (.arg .f), .assign .cr (.arg .cr), .assign .combination (.arg .combination)] }
  get := some [
    .merge (.above .AnarchicSocietyOptimization), .put .alpha .alpha, .put .gamma .gamma, .put .theta .theta, .put .nl .nl, .put .f .f, .put .cr .cr,
    .put .combination .combination]

/-- `HillClimbAlgorithm` (other/hc.py:34; other/hc.py:77-88; other/hc.py:90-101; other/hc.py:103-110) -/
def cHillClimbAlgorithm : Class where
  bases := [.Algorithm]
  init := some {
    star := true
    params := [
      (.delta, .v0_5), (.neighborhood_function, .neighborhood)]
    body := [
      .drop .population_size, .call (.above .HillClimbAlgorithm) .init [.const .v1] true [] true, .assign .delta (.arg .delta),
      .assign .neighborhood_function (.arg .neighborhood_function)] }
  set := some {
    star := false
    params := [
      (.delta, .v0_5), (.neighborhood_function, .neighborhood)]
    body := [
      .drop .population_size, .call (.above .HillClimbAlgorithm) .set [] false [(.population_size, .const .v1)] true, .assign .delta (.arg .delta),
      .assign .neighborhood_function (.arg .neighborhood_function)] }
  get := some [
    .merge (.above .HillClimbAlgorithm), .remove .population_size, .put .delta .delta, .put .neighborhood_function .neighborhood_function]

/-- `MultipleTrajectorySearch` (other/mts.py:315; other/mts.py:366-391; other/mts.py:393-418; other/mts.py:420-438) -/
def cMultipleTrajectorySearch : Class where
  bases := [.Algorithm]
  init := some {
    star := true
    params := [
      (.population_size, .v40), (.num_tests, .v5), (.num_searches, .v5), (.num_searches_best, .v5), (.num_enabled, .v17), (.bonus1, .v10),
      (.bonus2, .v1), (.local_searches, .mts_ls1_mts_ls2_mts_ls3)]
    body := [
      .call (.above .MultipleTrajectorySearch) .init [.arg .population_size] true [] true, .assign .num_tests (.arg .num_tests),
      .assign .num_searches (.arg .num_searches), .assign .num_searches_best (.arg .num_searches_best), .assign .num_enabled (.arg .num_enabled),
      .assign .bonus1 (.arg .bonus1), .assign .bonus2 (.arg .bonus2), .assign .local_searches (.arg .local_searches)] }
  set := some {
    star := false
    params := [
      (.population_size, .v40), (.num_tests, .v5), (.num_searches, .v5), (.num_searches_best, .v5), (.num_enabled, .v17), (.bonus1, .v10),
      (.bonus2, .v1), (.local_searches, .mts_ls1_mts_ls2_mts_ls3)]
    body := [
      .call (.above .MultipleTrajectorySearch) .set [] false [(.population_size, .pop .population_size (.arg .population_size))] true,
      .assign .num_tests (.arg .num_tests), .assign .num_searches (.arg .num_searches), .assign .num_searches_best (.arg .num_searches_best),
      .assign .num_enabled (.arg .num_enabled), .assign .bonus1 (.arg .bonus1), .assign .bonus2 (.arg .bonus2),
      .assign .local_searches (.arg .local_searches)] }
  get := some [
    .merge (.named .Algorithm), .rename .population_size .M, .put .num_tests .num_tests, .put .num_searches .num_searches,
    .put .num_searches_best .num_searches_best, .put .bonus1 .bonus1, .put .bonus2 .bonus2, .put .num_enabled .num_enabled,
    .put .local_searches .local_searches]

/-- `MultipleTrajectorySearchV1` (other/mts.py:574; other/mts.py:618-637; other/mts.py:639-656) -/
def cMultipleTrajectorySearchV1 : Class where
  bases := [.MultipleTrajectorySearch]
  init := some {
    star := true
    params := [
      (.population_size, .v40), (.num_tests, .v5), (.num_searches, .v5), (.num_enabled, .v17), (.bonus1, .v10), (.bonus2, .v1)]
    body := [
      .drop .num_searches_best, .drop .local_searches,
      .call (.above .MultipleTrajectorySearchV1) .init [.arg .population_size, .arg .num_tests, .arg .num_searches, .const .v0, .arg .num_enabled, .arg .bonus1, .arg .bonus2] true [(.local_searches, .const .mts_ls1v1_mts_ls2)] true] }
  set := some {
    star := false
    params := [
      (.population_size, .v40), (.num_tests, .v5), (.num_searches, .v5), (.num_enabled, .v17), (.bonus1, .v10), (.bonus2, .v1)]
    body := [
      .drop .num_searches_best,
      .call (.above .MultipleTrajectorySearchV1) .set [] false [(.num_searches_best, .const .v0), (.local_searches, .const .mts_ls1v1_mts_ls2)] true] }

/-- `NelderMeadMethod` (other/nmm.py:15; other/nmm.py:60-78; other/nmm.py:80-98; other/nmm.py:100-108) -/
def cNelderMeadMethod : Class where
  bases := [.Algorithm]
  init := some {
    star := true
    params := [
      (.population_size, .None), (.alpha, .v0_1), (.gamma, .v0_3), (.rho, .vm0_2), (.sigma, .vm0_2)]
    body := [
      .call (.above .NelderMeadMethod) .init [.arg .population_size] true [(.initialization_function, .pop .initialization_function (.const .self_init_pop))] true,
      .assign .alpha (.arg .alpha), .assign .gamma (.arg .gamma), .assign .rho (.arg .rho), .assign .sigma (.arg .sigma)] }
  set := some {
    star := false
    params := [
      (.population_size, .None), (.alpha, .v0_1), (.gamma, .v0_3), (.rho, .vm0_2), (.sigma, .vm0_2)]
    body := [
      .call (.above .NelderMeadMethod) .set [] false [(.population_size, .arg .population_size), (.initialization_function, .pop .initialization_function (.const .self_init_pop))] true,
      .assign .alpha (.arg .alpha), .assign .gamma (.arg .gamma), .assign .rho (.arg .rho), .assign .sigma (.arg .sigma)] }
  get := some [
    .merge (.above .NelderMeadMethod), .put .alpha .alpha, .put .gamma .gamma, .put .rho .rho, .put .sigma .sigma]

/-- `RandomSearch` (other/rs.py:15; other/rs.py:55-59; other/rs.py:61-70; other/rs.py:72-83) -/
def cRandomSearch : Class where
  bases := [.Algorithm]
  init := some {
    star := true
    params := [
]
    body := [
      .drop .population_size, .call (.above .RandomSearch) .init [.const .v1] true [] true, .assign .candidates (.const .None)] }
  set := some {
    star := false
    params := [
]
    body := [
      .drop .population_size, .call (.above .RandomSearch) .set [] false [(.population_size, .const .v1)] true, .assign .candidates (.const .None)] }
  get := some [
    .merge (.above .RandomSearch), .remove .population_size]

/-- `SimulatedAnnealing` (other/sa.py:45; other/sa.py:92-113; other/sa.py:115-136; other/sa.py:138-156) -/
def cSimulatedAnnealing : Class where
  bases := [.Algorithm]
  init := some {
    star := true
    params := [
      (.delta, .v0_5), (.starting_temperature, .v2000), (.delta_temperature, .v0_8), (.cooling_method, .cool_delta), (.epsilon, .v1em23)]
    body := [
      .drop .population_size, .call (.above .SimulatedAnnealing) .init [.const .v1] true [] true, .assign .delta (.arg .delta),
      .assign .starting_temperature (.arg .starting_temperature), .assign .delta_temperature (.arg .delta_temperature),
      .assign .cooling_method (.arg .cooling_method), .assign .epsilon (.arg .epsilon)] }
  set := some {
    star := false
    params := [
      (.delta, .v0_5), (.starting_temperature, .v2000), (.delta_temperature, .v0_8), (.cooling_method, .cool_delta), (.epsilon, .v1em23)]
    body := [
      .drop .population_size, .call (.above .SimulatedAnnealing) .set [] false [(.population_size, .const .v1)] true, .assign .delta (.arg .delta),
      .assign .starting_temperature (.arg .starting_temperature), .assign .delta_temperature (.arg .delta_temperature),
      .assign .cooling_method (.arg .cooling_method), .assign .epsilon (.arg .epsilon)] }
  get := some [
    .merge (.above .SimulatedAnnealing), .remove .population_size, .put .delta .delta, .put .delta_temperature .delta_temperature,
    .put .starting_temperature .starting_temperature, .put .epsilon .epsilon]

/-- The class statement of every algorithm. -/
def table : Cls → Class
  | .Algorithm => cAlgorithm
  | .ArtificialBeeColonyAlgorithm => cArtificialBeeColonyAlgorithm
  | .BatAlgorithm => cBatAlgorithm
  | .BeesAlgorithm => cBeesAlgorithm
  | .BacterialForagingOptimization => cBacterialForagingOptimization
  | .CamelAlgorithm => cCamelAlgorithm
  | .ClonalSelectionAlgorithm => cClonalSelectionAlgorithm
  | .CoralReefsOptimization => cCoralReefsOptimization
  | .CuckooSearch => cCuckooSearch
  | .CatSwarmOptimization => cCatSwarmOptimization
  | .DifferentialEvolution => cDifferentialEvolution
  | .DynNpDifferentialEvolution => cDynNpDifferentialEvolution
  | .AgingNpDifferentialEvolution => cAgingNpDifferentialEvolution
  | .MultiStrategyDifferentialEvolution => cMultiStrategyDifferentialEvolution
  | .DynNpMultiStrategyDifferentialEvolution => cDynNpMultiStrategyDifferentialEvolution
  | .EvolutionStrategy1p1 => cEvolutionStrategy1p1
  | .EvolutionStrategyMp1 => cEvolutionStrategyMp1
  | .EvolutionStrategyMpL => cEvolutionStrategyMpL
  | .EvolutionStrategyML => cEvolutionStrategyML
  | .FireflyAlgorithm => cFireflyAlgorithm
  | .ForestOptimizationAlgorithm => cForestOptimizationAlgorithm
  | .FlowerPollinationAlgorithm => cFlowerPollinationAlgorithm
  | .FishSchoolSearch => cFishSchoolSearch
  | .BareBonesFireworksAlgorithm => cBareBonesFireworksAlgorithm
  | .FireworksAlgorithm => cFireworksAlgorithm
  | .EnhancedFireworksAlgorithm => cEnhancedFireworksAlgorithm
  | .DynamicFireworksAlgorithmGauss => cDynamicFireworksAlgorithmGauss
  | .DynamicFireworksAlgorithm => cDynamicFireworksAlgorithm
  | .GeneticAlgorithm => cGeneticAlgorithm
  | .GravitationalSearchAlgorithm => cGravitationalSearchAlgorithm
  | .GlowwormSwarmOptimization => cGlowwormSwarmOptimization
  | .GlowwormSwarmOptimizationV1 => cGlowwormSwarmOptimizationV1
  | .GlowwormSwarmOptimizationV2 => cGlowwormSwarmOptimizationV2
  | .GlowwormSwarmOptimizationV3 => cGlowwormSwarmOptimizationV3
  | .GreyWolfOptimizer => cGreyWolfOptimizer
  | .HarrisHawksOptimization => cHarrisHawksOptimization
  | .HarmonySearch => cHarmonySearch
  | .HarmonySearchV1 => cHarmonySearchV1
  | .KrillHerd => cKrillHerd
  | .LionOptimizationAlgorithm => cLionOptimizationAlgorithm
  | .MonarchButterflyOptimization => cMonarchButterflyOptimization
  | .MothFlameOptimizer => cMothFlameOptimizer
  | .MonkeyKingEvolutionV1 => cMonkeyKingEvolutionV1
  | .MonkeyKingEvolutionV2 => cMonkeyKingEvolutionV2
  | .MonkeyKingEvolutionV3 => cMonkeyKingEvolutionV3
  | .MantisSearchAlgorithm => cMantisSearchAlgorithm
  | .ParticleSwarmAlgorithm => cParticleSwarmAlgorithm
  | .ParticleSwarmOptimization => cParticleSwarmOptimization
  | .OppositionVelocityClampingParticleSwarmOptimization => cOppositionVelocityClampingParticleSwarmOptimization
  | .CenterParticleSwarmOptimization => cCenterParticleSwarmOptimization
  | .MutatedParticleSwarmOptimization => cMutatedParticleSwarmOptimization
  | .MutatedCenterParticleSwarmOptimization => cMutatedCenterParticleSwarmOptimization
  | .MutatedCenterUnifiedParticleSwarmOptimization => cMutatedCenterUnifiedParticleSwarmOptimization
  | .ComprehensiveLearningParticleSwarmOptimizer => cComprehensiveLearningParticleSwarmOptimizer
  | .SineCosineAlgorithm => cSineCosineAlgorithm
  | .HybridBatAlgorithm => cHybridBatAlgorithm
  | .DifferentialEvolutionMTS => cDifferentialEvolutionMTS
  | .DifferentialEvolutionMTSv1 => cDifferentialEvolutionMTSv1
  | .DynNpDifferentialEvolutionMTS => cDynNpDifferentialEvolutionMTS
  | .DynNpDifferentialEvolutionMTSv1 => cDynNpDifferentialEvolutionMTSv1
  | .MultiStrategyDifferentialEvolutionMTS => cMultiStrategyDifferentialEvolutionMTS
  | .MultiStrategyDifferentialEvolutionMTSv1 => cMultiStrategyDifferentialEvolutionMTSv1
  | .DynNpMultiStrategyDifferentialEvolutionMTS => cDynNpMultiStrategyDifferentialEvolutionMTS
  | .DynNpMultiStrategyDifferentialEvolutionMTSv1 => cDynNpMultiStrategyDifferentialEvolutionMTSv1
  | .HybridSelfAdaptiveBatAlgorithm => cHybridSelfAdaptiveBatAlgorithm
  | .ImprovedLpsrSuccessHistoryAdaptiveDifferentialEvolution => cImprovedLpsrSuccessHistoryAdaptiveDifferentialEvolution
  | .SelfAdaptiveDifferentialEvolution => cSelfAdaptiveDifferentialEvolution
  | .MultiStrategySelfAdaptiveDifferentialEvolution => cMultiStrategySelfAdaptiveDifferentialEvolution
  | .ParameterFreeBatAlgorithm => cParameterFreeBatAlgorithm
  | .AdaptiveBatAlgorithm => cAdaptiveBatAlgorithm
  | .SelfAdaptiveBatAlgorithm => cSelfAdaptiveBatAlgorithm
  | .SuccessHistoryAdaptiveDifferentialEvolution => cSuccessHistoryAdaptiveDifferentialEvolution
  | .LpsrSuccessHistoryAdaptiveDifferentialEvolution => cLpsrSuccessHistoryAdaptiveDifferentialEvolution
  | .AnarchicSocietyOptimization => cAnarchicSocietyOptimization
  | .HillClimbAlgorithm => cHillClimbAlgorithm
  | .MultipleTrajectorySearch => cMultipleTrajectorySearch
  | .MultipleTrajectorySearchV1 => cMultipleTrajectorySearchV1
  | .NelderMeadMethod => cNelderMeadMethod
  | .RandomSearch => cRandomSearch
  | .SimulatedAnnealing => cSimulatedAnnealing

end NiaPy.Params
