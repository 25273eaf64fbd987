import Verif.Task

/-!
# Keyword parameters: constructors, `set_parameters` and `get_parameters` (C83, C84)

The three methods of every algorithm class are short lists of statements in a small fragment of Python: attributes are assigned from arguments,
entries of `kwargs` are popped, and the method of another class is called with positional arguments, keywords and `**kwargs`.  This file is an
interpreter of that fragment; `ParamsTable.lean` has the statements of all classes.

Values are opaque: the type `V` is arbitrary, constants and operations such as `_ // 2` are interpreted by an arbitrary `Interp V`.
-/

namespace NiaPy.Params

/-- Names of arguments and attributes, numbered in alphabetical order. -/
structure Nm where
  id : ℕ
  deriving DecidableEq

namespace Nm
def M : Nm := ⟨0⟩
def a : Nm := ⟨1⟩
def age : Nm := ⟨2⟩
def alpha : Nm := ⟨3⟩
def amplification_coeff : Nm := ⟨4⟩
def amplification_coefficient : Nm := ⟨5⟩
def amplitude_final : Nm := ⟨6⟩
def amplitude_init : Nm := ⟨7⟩
def area_limit : Nm := ⟨8⟩
def asexual_reproduction_prob : Nm := ⟨9⟩
def b : Nm := ⟨10⟩
def b_range : Nm := ⟨11⟩
def bar : Nm := ⟨12⟩
def beta : Nm := ⟨13⟩
def beta0 : Nm := ⟨14⟩
def beta1 : Nm := ⟨15⟩
def bits_per_param : Nm := ⟨16⟩
def bonus1 : Nm := ⟨17⟩
def bonus2 : Nm := ⟨18⟩
def broadcast_prob : Nm := ⟨19⟩
def brooding : Nm := ⟨20⟩
def burden_factor : Nm := ⟨21⟩
def bw_max : Nm := ⟨22⟩
def bw_min : Nm := ⟨23⟩
def c : Nm := ⟨24⟩
def c1 : Nm := ⟨25⟩
def c2 : Nm := ⟨26⟩
def c_a : Nm := ⟨27⟩
def c_r : Nm := ⟨28⟩
def c_t : Nm := ⟨29⟩
def callbacks : Nm := ⟨30⟩
def candidates : Nm := ⟨31⟩
def cdc : Nm := ⟨32⟩
def clone_factor : Nm := ⟨33⟩
def combination : Nm := ⟨34⟩
def cooling_method : Nm := ⟨35⟩
def cr : Nm := ⟨36⟩
def crossover : Nm := ⟨37⟩
def crossover_probability : Nm := ⟨38⟩
def crossover_rate : Nm := ⟨39⟩
def d : Nm := ⟨40⟩
def d_attract : Nm := ⟨41⟩
def d_s : Nm := ⟨42⟩
def death_rate : Nm := ⟨43⟩
def debug_pti : Nm := ⟨44⟩
def delta : Nm := ⟨45⟩
def delta_np : Nm := ⟨46⟩
def delta_temperature : Nm := ⟨47⟩
def depredation_prob : Nm := ⟨48⟩
def differential_weight : Nm := ⟨49⟩
def diffusion_speed : Nm := ⟨50⟩
def distance : Nm := ⟨51⟩
def dn : Nm := ⟨52⟩
def dx : Nm := ⟨53⟩
def e : Nm := ⟨54⟩
def endurance_init : Nm := ⟨55⟩
def epsilon : Nm := ⟨56⟩
def exception : Nm := ⟨57⟩
def extern_arc_rate : Nm := ⟨58⟩
def f : Nm := ⟨59⟩
def f_lower : Nm := ⟨60⟩
def f_upper : Nm := ⟨61⟩
def fc : Nm := ⟨62⟩
def female_ratio : Nm := ⟨63⟩
def fluctuation_coeff : Nm := ⟨64⟩
def food_number : Nm := ⟨65⟩
def foraging_speed : Nm := ⟨66⟩
def g0 : Nm := ⟨67⟩
def gamma : Nm := ⟨68⟩
def global_seeding_changes : Nm := ⟨69⟩
def h_repel : Nm := ⟨70⟩
def hist_mem_size : Nm := ⟨71⟩
def i : Nm := ⟨72⟩
def immigration_factor : Nm := ⟨73⟩
def individual_type : Nm := ⟨74⟩
def initialization_function : Nm := ⟨75⟩
def j : Nm := ⟨76⟩
def k : Nm := ⟨77⟩
def k_value : Nm := ⟨78⟩
def keep : Nm := ⟨79⟩
def l0 : Nm := ⟨80⟩
def lam : Nm := ⟨81⟩
def levy : Nm := ⟨82⟩
def lifetime : Nm := ⟨83⟩
def limit : Nm := ⟨84⟩
def local_searches : Nm := ⟨85⟩
def local_seeding_changes : Nm := ⟨86⟩
def loudness : Nm := ⟨87⟩
def m : Nm := ⟨88⟩
def mating_factor : Nm := ⟨89⟩
def max_amplitude : Nm := ⟨90⟩
def max_frequency : Nm := ⟨91⟩
def max_lifetime : Nm := ⟨92⟩
def max_loudness : Nm := ⟨93⟩
def max_neighbors : Nm := ⟨94⟩
def max_pulse_rate : Nm := ⟨95⟩
def max_temperature : Nm := ⟨96⟩
def max_velocity : Nm := ⟨97⟩
def min_frequency : Nm := ⟨98⟩
def min_lifetime : Nm := ⟨99⟩
def min_loudness : Nm := ⟨100⟩
def min_pulse_rate : Nm := ⟨101⟩
def min_temperature : Nm := ⟨102⟩
def min_velocity : Nm := ⟨103⟩
def min_w : Nm := ⟨104⟩
def mixture_ratio : Nm := ⟨105⟩
def mr : Nm := ⟨106⟩
def mu : Nm := ⟨107⟩
def mutation : Nm := ⟨108⟩
def mutation_factor : Nm := ⟨109⟩
def mutation_rate : Nm := ⟨110⟩
def n_chemotactic : Nm := ⟨111⟩
def n_elimination : Nm := ⟨112⟩
def n_max : Nm := ⟨113⟩
def n_reproduction : Nm := ⟨114⟩
def n_swim : Nm := ⟨115⟩
def neighborhood_function : Nm := ⟨116⟩
def nep : Nm := ⟨117⟩
def ngh : Nm := ⟨118⟩
def nl : Nm := ⟨119⟩
def nomad_ratio : Nm := ⟨120⟩
def normalize_space : Nm := ⟨121⟩
def np1 : Nm := ⟨122⟩
def np2 : Nm := ⟨123⟩
def nsp : Nm := ⟨124⟩
def nt : Nm := ⟨125⟩
def num_asexual_reproduction : Nm := ⟨126⟩
def num_broadcast : Nm := ⟨127⟩
def num_clones : Nm := ⟨128⟩
def num_depredation : Nm := ⟨129⟩
def num_enabled : Nm := ⟨130⟩
def num_gaussian : Nm := ⟨131⟩
def num_mutations : Nm := ⟨132⟩
def num_of_prides : Nm := ⟨133⟩
def num_rand : Nm := ⟨134⟩
def num_searches : Nm := ⟨135⟩
def num_searches_best : Nm := ⟨136⟩
def num_sparks : Nm := ⟨137⟩
def num_tests : Nm := ⟨138⟩
def omega : Nm := ⟨139⟩
def p : Nm := ⟨140⟩
def p0 : Nm := ⟨141⟩
def p_max : Nm := ⟨142⟩
def pa : Nm := ⟨143⟩
def partition : Nm := ⟨144⟩
def pbest_end : Nm := ⟨145⟩
def pbest_factor : Nm := ⟨146⟩
def pbest_start : Nm := ⟨147⟩
def period : Nm := ⟨148⟩
def phi : Nm := ⟨149⟩
def population_rate : Nm := ⟨150⟩
def population_size : Nm := ⟨151⟩
def prob_elimination : Nm := ⟨152⟩
def pulse_rate : Nm := ⟨153⟩
def r_accept : Nm := ⟨154⟩
def r_max : Nm := ⟨155⟩
def r_min : Nm := ⟨156⟩
def r_pa : Nm := ⟨157⟩
def reduction_coeff : Nm := ⟨158⟩
def reduction_coefficient : Nm := ⟨159⟩
def repair : Nm := ⟨160⟩
def rho : Nm := ⟨161⟩
def roaming_factor : Nm := ⟨162⟩
def rp : Nm := ⟨163⟩
def s : Nm := ⟨164⟩
def seed : Nm := ⟨165⟩
def selection : Nm := ⟨166⟩
def sexual_crossover : Nm := ⟨167⟩
def sigma : Nm := ⟨168⟩
def smp : Nm := ⟨169⟩
def spc : Nm := ⟨170⟩
def srd : Nm := ⟨171⟩
def starting_loudness : Nm := ⟨172⟩
def starting_temperature : Nm := ⟨173⟩
def step_individual_final : Nm := ⟨174⟩
def step_individual_init : Nm := ⟨175⟩
def step_size : Nm := ⟨176⟩
def step_volitive_final : Nm := ⟨177⟩
def step_volitive_init : Nm := ⟨178⟩
def strategies : Nm := ⟨179⟩
def strategy : Nm := ⟨180⟩
def supply_init : Nm := ⟨181⟩
def swarming : Nm := ⟨182⟩
def tao1 : Nm := ⟨183⟩
def tao2 : Nm := ⟨184⟩
def tao_1 : Nm := ⟨185⟩
def tao_2 : Nm := ⟨186⟩
def theta : Nm := ⟨187⟩
def tournament_size : Nm := ⟨188⟩
def transfer_rate : Nm := ⟨189⟩
def use_reflection : Nm := ⟨190⟩
def visibility : Nm := ⟨191⟩
def w : Nm := ⟨192⟩
def w0 : Nm := ⟨193⟩
def w1 : Nm := ⟨194⟩
def w_attract : Nm := ⟨195⟩
def w_foraging : Nm := ⟨196⟩
def w_max : Nm := ⟨197⟩
def w_min : Nm := ⟨198⟩
def w_neighbor : Nm := ⟨199⟩
def w_repel : Nm := ⟨200⟩
def w_scale : Nm := ⟨201⟩
end Nm

/-- Constants and operations of the source text, numbered in order of appearance; the source is in the comment, operands are written `_`. -/
structure Tok where
  id : ℕ
  deriving DecidableEq

namespace Tok
/-- `50` -/ def v50 : Tok := ⟨0⟩
/-- `default_numpy_init` -/ def default_numpy_init : Tok := ⟨1⟩
/-- `None` -/ def None : Tok := ⟨2⟩
/-- `10` -/ def v10 : Tok := ⟨3⟩
/-- `100` -/ def v100 : Tok := ⟨4⟩
/-- `default_individual_init` -/ def default_individual_init : Tok := ⟨5⟩
/-- `SolutionABC` -/ def SolutionABC : Tok := ⟨6⟩
/-- `_ // 2` -/ def op_fdiv_2 : Tok := ⟨7⟩
/-- `40` -/ def v40 : Tok := ⟨8⟩
/-- `1` -/ def v1 : Tok := ⟨9⟩
/-- `0.97` -/ def v0_97 : Tok := ⟨10⟩
/-- `0.1` -/ def v0_1 : Tok := ⟨11⟩
/-- `0` -/ def v0 : Tok := ⟨12⟩
/-- `2` -/ def v2 : Tok := ⟨13⟩
/-- `20` -/ def v20 : Tok := ⟨14⟩
/-- `5` -/ def v5 : Tok := ⟨15⟩
/-- `4` -/ def v4 : Tok := ⟨16⟩
/-- `0.25` -/ def v0_25 : Tok := ⟨17⟩
/-- `True` -/ def True : Tok := ⟨18⟩
/-- `0.2` -/ def v0_2 : Tok := ⟨19⟩
/-- `0.5` -/ def v0_5 : Tok := ⟨20⟩
/-- `-10` -/ def vm10 : Tok := ⟨21⟩
/-- `Camel` -/ def Camel : Tok := ⟨22⟩
/-- `self.init_pop` -/ def self_init_pop : Tok := ⟨23⟩
/-- `16` -/ def v16 : Tok := ⟨24⟩
/-- `int(_ * _)` -/ def int_mul : Tok := ⟨25⟩
/-- `25` -/ def v25 : Tok := ⟨26⟩
/-- `0.4` -/ def v0_4 : Tok := ⟨27⟩
/-- `0.3` -/ def v0_3 : Tok := ⟨28⟩
/-- `0.36` -/ def v0_36 : Tok := ⟨29⟩
/-- `default_sexual_crossover` -/ def default_sexual_crossover : Tok := ⟨30⟩
/-- `default_brooding` -/ def default_brooding : Tok := ⟨31⟩
/-- `self` -/ def self : Tok := ⟨32⟩
/-- `30` -/ def v30 : Tok := ⟨33⟩
/-- `2.05` -/ def v2_05 : Tok := ⟨34⟩
/-- `3` -/ def v3 : Tok := ⟨35⟩
/-- `0.85` -/ def v0_85 : Tok := ⟨36⟩
/-- `1.9` -/ def v1_9 : Tok := ⟨37⟩
/-- `0.8` -/ def v0_8 : Tok := ⟨38⟩
/-- `cross_rand1` -/ def cross_rand1 : Tok := ⟨39⟩
/-- `Individual` -/ def Individual : Tok := ⟨40⟩
/-- `12` -/ def v12 : Tok := ⟨41⟩
/-- `proportional` -/ def proportional : Tok := ⟨42⟩
/-- `AgingIndividual` -/ def AgingIndividual : Tok := ⟨43⟩
/-- `abs(_ - _) / 2` -/ def abs_sub_div_2 : Tok := ⟨44⟩
/-- `(cross_rand1, cross_best1, cross_curr2best1, cross_rand2)` -/ def cross_rand1_cross_best1_cross_curr2best1_cross_rand2 : Tok := ⟨45⟩
/-- `multi_mutations` -/ def multi_mutations : Tok := ⟨46⟩
/-- `1.1` -/ def v1_1 : Tok := ⟨47⟩
/-- `1e-20` -/ def v1em20 : Tok := ⟨48⟩
/-- `IndividualES` -/ def IndividualES : Tok := ⟨49⟩
/-- `45` -/ def v45 : Tok := ⟨50⟩
/-- `0.01` -/ def v0_01 : Tok := ⟨51⟩
/-- `0.0001` -/ def v0_0001 : Tok := ⟨52⟩
/-- `0.001` -/ def v0_001 : Tok := ⟨53⟩
/-- `500` -/ def v500 : Tok := ⟨54⟩
/-- `5000` -/ def v5000 : Tok := ⟨55⟩
/-- `1.5` -/ def v1_5 : Tok := ⟨56⟩
/-- `0.04` -/ def v0_04 : Tok := ⟨57⟩
/-- `np.finfo(float).eps` -/ def np_finfo_float_eps : Tok := ⟨58⟩
/-- `1.2` -/ def v1_2 : Tok := ⟨59⟩
/-- `0.9` -/ def v0_9 : Tok := ⟨60⟩
/-- `tournament_selection` -/ def tournament_selection : Tok := ⟨61⟩
/-- `uniform_crossover` -/ def uniform_crossover : Tok := ⟨62⟩
/-- `uniform_mutation` -/ def uniform_mutation : Tok := ⟨63⟩
/-- `2.467` -/ def v2_467 : Tok := ⟨64⟩
/-- `1e-17` -/ def v1em17 : Tok := ⟨65⟩
/-- `0.6` -/ def v0_6 : Tok := ⟨66⟩
/-- `0.08` -/ def v0_08 : Tok := ⟨67⟩
/-- `0.03` -/ def v0_03 : Tok := ⟨68⟩
/-- `euclidean` -/ def euclidean : Tok := ⟨69⟩
/-- `0.7` -/ def v0_7 : Tok := ⟨70⟩
/-- `0.35` -/ def v0_35 : Tok := ⟨71⟩
/-- `1.42` -/ def v1_42 : Tok := ⟨72⟩
/-- `0.02` -/ def v0_02 : Tok := ⟨73⟩
/-- `0.002` -/ def v0_002 : Tok := ⟨74⟩
/-- `0.93` -/ def v0_93 : Tok := ⟨75⟩
/-- `0.42` -/ def v0_42 : Tok := ⟨76⟩
/-- `0.38` -/ def v0_38 : Tok := ⟨77⟩
/-- `2.63` -/ def v2_63 : Tok := ⟨78⟩
/-- `0.05` -/ def v0_05 : Tok := ⟨79⟩
/-- `Lion` -/ def Lion : Tok := ⟨80⟩
/-- `5.0 / 12.0` -/ def v5_0_12_0 : Tok := ⟨81⟩
/-- `int(np.ceil(_ * _))` -/ def int_np_ceil_mul : Tok := ⟨82⟩
/-- `_ - _` -/ def op_sub : Tok := ⟨83⟩
/-- `MkeSolution` -/ def MkeSolution : Tok := ⟨84⟩
/-- `False` -/ def False : Tok := ⟨85⟩
/-- `-1.5` -/ def vm1_5 : Tok := ⟨86⟩
/-- `reflect` -/ def reflect : Tok := ⟨87⟩
/-- `-np.inf` -/ def neg_inf : Tok := ⟨88⟩
/-- `np.inf` -/ def pos_inf : Tok := ⟨89⟩
/-- `1.49612` -/ def v1_49612 : Tok := ⟨90⟩
/-- `1.49445` -/ def v1_49445 : Tok := ⟨91⟩
/-- `cross_best1` -/ def cross_best1 : Tok := ⟨92⟩
/-- `MtsIndividual` -/ def MtsIndividual : Tok := ⟨93⟩
/-- `(mts_ls1v1, mts_ls2, mts_ls3v1)` -/ def mts_ls1v1_mts_ls2_mts_ls3v1 : Tok := ⟨94⟩
/-- `360` -/ def v360 : Tok := ⟨95⟩
/-- `2.6` -/ def v2_6 : Tok := ⟨96⟩
/-- `6` -/ def v6 : Tok := ⟨97⟩
/-- `SolutionILSHADE` -/ def SolutionILSHADE : Tok := ⟨98⟩
/-- `SolutionJDE` -/ def SolutionJDE : Tok := ⟨99⟩
/-- `(cross_curr2rand1, cross_curr2best1, cross_rand1, cross_best1, cross_best2)` -/ def cross_curr2rand1_cross_curr2best1_cross_rand1_cross_best1_cross_best2 : Tok := ⟨100⟩
/-- `80` -/ def v80 : Tok := ⟨101⟩
/-- `540` -/ def v540 : Tok := ⟨102⟩
/-- `0.11` -/ def v0_11 : Tok := ⟨103⟩
/-- `SolutionSHADE` -/ def SolutionSHADE : Tok := ⟨104⟩
/-- `43` -/ def v43 : Tok := ⟨105⟩
/-- `(1, 0.83)` -/ def t1_0_83 : Tok := ⟨106⟩
/-- `(1.17, 0.56)` -/ def t1_17_0_56 : Tok := ⟨107⟩
/-- `(0.932, 0.832)` -/ def t0_932_0_832 : Tok := ⟨108⟩
/-- `elitism` -/ def elitism : Tok := ⟨109⟩
/-- `neighborhood` -/ def neighborhood : Tok := ⟨110⟩
/-- `17` -/ def v17 : Tok := ⟨111⟩
/-- `(mts_ls1, mts_ls2, mts_ls3)` -/ def mts_ls1_mts_ls2_mts_ls3 : Tok := ⟨112⟩
/-- `(mts_ls1v1, mts_ls2)` -/ def mts_ls1v1_mts_ls2 : Tok := ⟨113⟩
/-- `-0.2` -/ def vm0_2 : Tok := ⟨114⟩
/-- `2000` -/ def v2000 : Tok := ⟨115⟩
/-- `cool_delta` -/ def cool_delta : Tok := ⟨116⟩
/-- `1e-23` -/ def v1em23 : Tok := ⟨117⟩
end Tok

/-- The algorithm classes of `niapy/algorithms`. -/
inductive Cls
  | Algorithm | ArtificialBeeColonyAlgorithm | BatAlgorithm | BeesAlgorithm | BacterialForagingOptimization | CamelAlgorithm
  | ClonalSelectionAlgorithm | CoralReefsOptimization | CuckooSearch | CatSwarmOptimization | DifferentialEvolution
  | DynNpDifferentialEvolution | AgingNpDifferentialEvolution | MultiStrategyDifferentialEvolution | DynNpMultiStrategyDifferentialEvolution
  | EvolutionStrategy1p1 | EvolutionStrategyMp1 | EvolutionStrategyMpL | EvolutionStrategyML | FireflyAlgorithm | ForestOptimizationAlgorithm
  | FlowerPollinationAlgorithm | FishSchoolSearch | BareBonesFireworksAlgorithm | FireworksAlgorithm | EnhancedFireworksAlgorithm
  | DynamicFireworksAlgorithmGauss | DynamicFireworksAlgorithm | GeneticAlgorithm | GravitationalSearchAlgorithm | GlowwormSwarmOptimization
  | GlowwormSwarmOptimizationV1 | GlowwormSwarmOptimizationV2 | GlowwormSwarmOptimizationV3 | GreyWolfOptimizer | HarrisHawksOptimization
  | HarmonySearch | HarmonySearchV1 | KrillHerd | LionOptimizationAlgorithm | MonarchButterflyOptimization | MothFlameOptimizer
  | MonkeyKingEvolutionV1 | MonkeyKingEvolutionV2 | MonkeyKingEvolutionV3 | MantisSearchAlgorithm | ParticleSwarmAlgorithm
  | ParticleSwarmOptimization | OppositionVelocityClampingParticleSwarmOptimization | CenterParticleSwarmOptimization
  | MutatedParticleSwarmOptimization | MutatedCenterParticleSwarmOptimization | MutatedCenterUnifiedParticleSwarmOptimization
  | ComprehensiveLearningParticleSwarmOptimizer | SineCosineAlgorithm | HybridBatAlgorithm | DifferentialEvolutionMTS
  | DifferentialEvolutionMTSv1 | DynNpDifferentialEvolutionMTS | DynNpDifferentialEvolutionMTSv1 | MultiStrategyDifferentialEvolutionMTS
  | MultiStrategyDifferentialEvolutionMTSv1 | DynNpMultiStrategyDifferentialEvolutionMTS | DynNpMultiStrategyDifferentialEvolutionMTSv1
  | HybridSelfAdaptiveBatAlgorithm | ImprovedLpsrSuccessHistoryAdaptiveDifferentialEvolution | SelfAdaptiveDifferentialEvolution
  | MultiStrategySelfAdaptiveDifferentialEvolution | ParameterFreeBatAlgorithm | AdaptiveBatAlgorithm | SelfAdaptiveBatAlgorithm
  | SuccessHistoryAdaptiveDifferentialEvolution | LpsrSuccessHistoryAdaptiveDifferentialEvolution | AnarchicSocietyOptimization
  | HillClimbAlgorithm | MultipleTrajectorySearch | MultipleTrajectorySearchV1 | NelderMeadMethod | RandomSearch | SimulatedAnnealing
  deriving DecidableEq, Repr

/-- Expressions: a local variable, a constant, `self.n`, `kwargs.pop(n, d)`, an operation. -/
inductive Exp
  | arg (n : Nm) | const (s : Tok) | attr (n : Nm) | pop (n : Nm) (d : Exp) | op (s : Tok) (a b : Exp)

inductive Meth | init | set
  deriving DecidableEq

/-- Which method a call reaches: `super().m` in the body of class `c`, `c.m(self, ...)`, or `self.m`. -/
inductive Target | above (c : Cls) | named (c : Cls) | own

/-- Statements of `__init__` and `set_parameters`: `self.n = e`; `kwargs.pop(n, None)`; `n = e`; the call of another method with positional
arguments, `*args` (if `star`), keywords and `**kwargs` (if `fwd`). -/
inductive Stmt
  | assign (n : Nm) (e : Exp) | drop (n : Nm) | bind (n : Nm) (e : Exp)
  | call (t : Target) (m : Meth) (pos : List Exp) (star : Bool) (kws : List (Nm × Exp)) (fwd : Bool)

/-- Statements of `get_parameters` about the returned dictionary: `d[k] = self.a`; update with another dictionary; `d.pop(k, None)`;
`d[k'] = d.pop(k, self.k)`. -/
inductive GetStmt
  | put (k a : Nm) | merge (t : Target) | remove (k : Nm) | rename (k k' : Nm)

/-- A method: accepts `*args`; parameters with defaults; body. All methods accept `**kwargs`. -/
structure Method where
  star : Bool
  params : List (Nm × Tok)
  body : List Stmt

/-- A class statement. -/
structure Class where
  bases : List Cls
  init : Option Method := none
  set : Option Method := none
  get : Option (List GetStmt) := none

/-- The values of constants and operations. -/
structure Interp (V : Type*) where
  const : Tok → V
  op : Tok → V → V → V

/-- A dictionary, as a list of entries. -/
abbrev Dict (V : Type*) := List (Nm × V)

def Dict.find {V : Type*} : Dict V → Nm → Option V
  | [], _ => none
  | (k, v) :: d, n => if k = n then some v else Dict.find d n
def Dict.drop {V : Type*} (d : Dict V) (n : Nm) : Dict V := d.filter fun e => e.1 ≠ n
def Dict.put {V : Type*} (d : Dict V) (n : Nm) (v : V) : Dict V := Dict.drop d n ++ [(n, v)]

/-- The attributes of an object; an assignment puts a new entry in front. -/
abbrev Obj (V : Type*) := Dict V

/-- The local variables, `args` and `kwargs` of a running method. -/
structure Frame (V : Type*) where
  loc : Dict V
  args : List V
  kw : Dict V

section
variable {V : Type*} (I : Interp V)

/-- Value of an expression; `kwargs.pop` changes `kwargs`. A missing name or attribute raises. -/
def eval (σ : Obj V) : Exp → Frame V → Except PyErr (V × Frame V)
  | .arg n, f => match Dict.find f.loc n with
    | some v => .ok (v, f)
    | none => .error .attributeError
  | .const s, f => .ok (I.const s, f)
  | .attr n, f => match Dict.find σ n with
    | some v => .ok (v, f)
    | none => .error .attributeError
  | .pop n d, f => match Dict.find f.kw n with
    | some v => .ok (v, { f with kw := Dict.drop f.kw n })
    | none => eval σ d f
  | .op s a b, f => match eval σ a f with
    | .error e => .error e
    | .ok (x, f) => match eval σ b f with
      | .error e => .error e
      | .ok (y, f) => .ok (I.op s x y, f)

/-- Values of positional arguments, from left to right. -/
def evalList (σ : Obj V) : List Exp → Frame V → Except PyErr (List V × Frame V)
  | [], f => .ok ([], f)
  | e :: es, f => match eval I σ e f with
    | .error e => .error e
    | .ok (x, f) => match evalList σ es f with
      | .error e => .error e
      | .ok (xs, f) => .ok (x :: xs, f)

/-- Values of keyword arguments, from left to right. -/
def evalKws (σ : Obj V) : List (Nm × Exp) → Frame V → Except PyErr (Dict V × Frame V)
  | [], f => .ok ([], f)
  | (n, e) :: es, f => match eval I σ e f with
    | .error e => .error e
    | .ok (x, f) => match evalKws σ es f with
      | .error e => .error e
      | .ok (xs, f) => .ok ((n, x) :: xs, f)

/-- Binding of arguments to parameters; `TypeError` for too many positional arguments and for an argument given twice. -/
def bindArgs (m : Method) (pos : List V) (kw : Dict V) : Except PyErr (Frame V) :=
  let given := (m.params.map (·.1)).zip pos
  if m.params.length < pos.length && !m.star then .error .typeError
  else if given.any fun p => (Dict.find kw p.1).isSome then .error .typeError
  else .ok {
    loc := given ++ (m.params.drop pos.length).map fun p => (p.1, (Dict.find kw p.1).getD (I.const p.2))
    args := pos.drop m.params.length
    kw := kw.filter fun e => m.params.all fun p => p.1 ≠ e.1 }

variable (T : Cls → Class)

/-- The merge step of the method resolution order. -/
def merge : ℕ → List (List Cls) → List Cls
  | 0, _ => []
  | n + 1, ls =>
    let good (l : List Cls) : Option Cls := match l with
      | [] => none
      | h :: _ => if ls.all fun l' => h ∉ l'.tail then some h else none
    match ls.findSome? good with
    | none => []
    | some h => h :: merge n (ls.map fun l => if l.head? = some h then l.tail else l)

/-- The method resolution order of a class (C3 linearisation). -/
def mro : ℕ → Cls → List Cls
  | 0, _ => []
  | n + 1, c => c :: merge 12 ((T c).bases.map (mro n) ++ [(T c).bases])

/-- The first definition found by a call from an object of class `self`. -/
def resolve {α : Type} (self : Cls) (get : Class → Option α) : Target → Option α
  | .own => (mro T 12 self).findSome? fun c => get (T c)
  | .above c => ((mro T 12 self).dropWhile (· ≠ c)).tail.findSome? fun c => get (T c)
  | .named c => (mro T 12 c).findSome? fun c => get (T c)

/-- One statement; `rec` calls another method. -/
def step (rec : Target → Meth → List V → Dict V → Obj V → Except PyErr (Obj V)) (s : Obj V × Frame V) : Stmt → Except PyErr (Obj V × Frame V)
  | .assign n e => match eval I s.1 e s.2 with
    | .error e => .error e
    | .ok (v, f) => .ok ((n, v) :: s.1, f)
  | .drop n => .ok (s.1, { s.2 with kw := Dict.drop s.2.kw n })
  | .bind n e => match eval I s.1 e s.2 with
    | .error e => .error e
    | .ok (v, f) => .ok (s.1, { f with loc := (n, v) :: f.loc })
  | .call t m pos star kws fwd => match evalList I s.1 pos s.2 with
    | .error e => .error e
    | .ok (ps, f) => match evalKws I s.1 kws f with
      | .error e => .error e
      | .ok (ks, f) =>
        if fwd && ks.any fun k => (Dict.find f.kw k.1).isSome then .error .typeError
        else match rec t m (ps ++ if star then f.args else []) (ks ++ if fwd then f.kw else []) s.1 with
          | .error e => .error e
          | .ok σ => .ok (σ, f)

def steps (rec : Target → Meth → List V → Dict V → Obj V → Except PyErr (Obj V)) : List Stmt → Obj V × Frame V → Except PyErr (Obj V × Frame V)
  | [], s => .ok s
  | st :: l, s => match step I rec s st with
    | .error e => .error e
    | .ok s => steps rec l s

/-- A call of a method on an object of class `self`. -/
def call (self : Cls) : ℕ → Target → Meth → List V → Dict V → Obj V → Except PyErr (Obj V)
  | 0, _, _, _, _, _ => .error .outOfFuel
  | n + 1, t, m, pos, kw, σ => match resolve T self (fun c => match m with | .init => c.init | .set => c.set) t with
    | none => .error .attributeError
    | some m => match bindArgs I m pos kw with
      | .error e => .error e
      | .ok f => match steps I (call self n) m.body (σ, f) with
        | .error e => .error e
        | .ok s => .ok s.1

/-- One statement of `get_parameters`. -/
def getStep (rec : Target → Except PyErr (Dict V)) (σ : Obj V) (d : Dict V) : GetStmt → Except PyErr (Dict V)
  | .put k a => match Dict.find σ a with
    | none => .error .attributeError
    | some v => .ok (Dict.put d k v)
  | .merge t => match rec t with
    | .error e => .error e
    | .ok d' => .ok (d'.foldl (fun d e => Dict.put d e.1 e.2) d)
  | .remove k => .ok (Dict.drop d k)
  | .rename k k' => match Dict.find d k with
    | some v => .ok (Dict.put (Dict.drop d k) k' v)
    | none => match Dict.find σ k with
      | none => .error .attributeError
      | some v => .ok (Dict.put d k' v)

def getSteps (rec : Target → Except PyErr (Dict V)) (σ : Obj V) : List GetStmt → Dict V → Except PyErr (Dict V)
  | [], d => .ok d
  | s :: l, d => match getStep rec σ d s with
    | .error e => .error e
    | .ok d => getSteps rec σ l d

/-- A call of `get_parameters` on an object of class `self`. -/
def getCall (self : Cls) (σ : Obj V) : ℕ → Target → Except PyErr (Dict V)
  | 0, _ => .error .outOfFuel
  | n + 1, t => match resolve T self (·.get) t with
    | none => .error .attributeError
    | some l => getSteps (getCall self σ n) σ l []

/-- `c(**kw)` -/
def new (c : Cls) (kw : Dict V) : Except PyErr (Obj V) := call I T c 12 .own .init [] kw []
/-- `a.set_parameters(**kw)` for an object `a` of class `c` -/
def setParams (c : Cls) (kw : Dict V) (σ : Obj V) : Except PyErr (Obj V) := call I T c 12 .own .set [] kw σ
/-- `a.get_parameters()` -/
def getParams (c : Cls) (σ : Obj V) : Except PyErr (Dict V) := getCall T c σ 12 .own

end

/-- All names of the table. -/
def Nm.all : List Nm :=
  [.M, .a, .age, .alpha, .amplification_coeff, .amplification_coefficient, .amplitude_final, .amplitude_init, .area_limit, .asexual_reproduction_prob,
   .b, .b_range, .bar, .beta, .beta0, .beta1, .bits_per_param, .bonus1, .bonus2, .broadcast_prob, .brooding, .burden_factor, .bw_max, .bw_min, .c,
   .c1, .c2, .c_a, .c_r, .c_t, .callbacks, .candidates, .cdc, .clone_factor, .combination, .cooling_method, .cr, .crossover, .crossover_probability,
   .crossover_rate, .d, .d_attract, .d_s, .death_rate, .debug_pti, .delta, .delta_np, .delta_temperature, .depredation_prob, .differential_weight,
   .diffusion_speed, .distance, .dn, .dx, .e, .endurance_init, .epsilon, .exception, .extern_arc_rate, .f, .f_lower, .f_upper, .fc, .female_ratio,
   .fluctuation_coeff, .food_number, .foraging_speed, .g0, .gamma, .global_seeding_changes, .h_repel, .hist_mem_size, .i, .immigration_factor,
   .individual_type, .initialization_function, .j, .k, .k_value, .keep, .l0, .lam, .levy, .lifetime, .limit, .local_searches, .local_seeding_changes,
   .loudness, .m, .mating_factor, .max_amplitude, .max_frequency, .max_lifetime, .max_loudness, .max_neighbors, .max_pulse_rate, .max_temperature,
   .max_velocity, .min_frequency, .min_lifetime, .min_loudness, .min_pulse_rate, .min_temperature, .min_velocity, .min_w, .mixture_ratio, .mr, .mu,
   .mutation, .mutation_factor, .mutation_rate, .n_chemotactic, .n_elimination, .n_max, .n_reproduction, .n_swim, .neighborhood_function, .nep, .ngh,
   .nl, .nomad_ratio, .normalize_space, .np1, .np2, .nsp, .nt, .num_asexual_reproduction, .num_broadcast, .num_clones, .num_depredation,
   .num_enabled, .num_gaussian, .num_mutations, .num_of_prides, .num_rand, .num_searches, .num_searches_best, .num_sparks, .num_tests, .omega, .p,
   .p0, .p_max, .pa, .partition, .pbest_end, .pbest_factor, .pbest_start, .period, .phi, .population_rate, .population_size, .prob_elimination,
   .pulse_rate, .r_accept, .r_max, .r_min, .r_pa, .reduction_coeff, .reduction_coefficient, .repair, .rho, .roaming_factor, .rp, .s, .seed,
   .selection, .sexual_crossover, .sigma, .smp, .spc, .srd, .starting_loudness, .starting_temperature, .step_individual_final, .step_individual_init,
   .step_size, .step_volitive_final, .step_volitive_init, .strategies, .strategy, .supply_init, .swarming, .tao1, .tao2, .tao_1, .tao_2, .theta,
   .tournament_size, .transfer_rate, .use_reflection, .visibility, .w, .w0, .w1, .w_attract, .w_foraging, .w_max, .w_min, .w_neighbor, .w_repel,
   .w_scale]

/-- All classes. -/
def Cls.all : List Cls :=
  [.Algorithm, .ArtificialBeeColonyAlgorithm, .BatAlgorithm, .BeesAlgorithm, .BacterialForagingOptimization, .CamelAlgorithm,
   .ClonalSelectionAlgorithm, .CoralReefsOptimization, .CuckooSearch, .CatSwarmOptimization, .DifferentialEvolution, .DynNpDifferentialEvolution,
   .AgingNpDifferentialEvolution, .MultiStrategyDifferentialEvolution, .DynNpMultiStrategyDifferentialEvolution, .EvolutionStrategy1p1,
   .EvolutionStrategyMp1, .EvolutionStrategyMpL, .EvolutionStrategyML, .FireflyAlgorithm, .ForestOptimizationAlgorithm, .FlowerPollinationAlgorithm,
   .FishSchoolSearch, .BareBonesFireworksAlgorithm, .FireworksAlgorithm, .EnhancedFireworksAlgorithm, .DynamicFireworksAlgorithmGauss,
   .DynamicFireworksAlgorithm, .GeneticAlgorithm, .GravitationalSearchAlgorithm, .GlowwormSwarmOptimization, .GlowwormSwarmOptimizationV1,
   .GlowwormSwarmOptimizationV2, .GlowwormSwarmOptimizationV3, .GreyWolfOptimizer, .HarrisHawksOptimization, .HarmonySearch, .HarmonySearchV1,
   .KrillHerd, .LionOptimizationAlgorithm, .MonarchButterflyOptimization, .MothFlameOptimizer, .MonkeyKingEvolutionV1, .MonkeyKingEvolutionV2,
   .MonkeyKingEvolutionV3, .MantisSearchAlgorithm, .ParticleSwarmAlgorithm, .ParticleSwarmOptimization,
   .OppositionVelocityClampingParticleSwarmOptimization, .CenterParticleSwarmOptimization, .MutatedParticleSwarmOptimization,
   .MutatedCenterParticleSwarmOptimization, .MutatedCenterUnifiedParticleSwarmOptimization, .ComprehensiveLearningParticleSwarmOptimizer,
   .SineCosineAlgorithm, .HybridBatAlgorithm, .DifferentialEvolutionMTS, .DifferentialEvolutionMTSv1, .DynNpDifferentialEvolutionMTS,
   .DynNpDifferentialEvolutionMTSv1, .MultiStrategyDifferentialEvolutionMTS, .MultiStrategyDifferentialEvolutionMTSv1,
   .DynNpMultiStrategyDifferentialEvolutionMTS, .DynNpMultiStrategyDifferentialEvolutionMTSv1, .HybridSelfAdaptiveBatAlgorithm,
   .ImprovedLpsrSuccessHistoryAdaptiveDifferentialEvolution, .SelfAdaptiveDifferentialEvolution, .MultiStrategySelfAdaptiveDifferentialEvolution,
   .ParameterFreeBatAlgorithm, .AdaptiveBatAlgorithm, .SelfAdaptiveBatAlgorithm, .SuccessHistoryAdaptiveDifferentialEvolution,
   .LpsrSuccessHistoryAdaptiveDifferentialEvolution, .AnarchicSocietyOptimization, .HillClimbAlgorithm, .MultipleTrajectorySearch,
   .MultipleTrajectorySearchV1, .NelderMeadMethod, .RandomSearch, .SimulatedAnnealing]

theorem Cls.mem_all (c : Cls) : c ∈ Cls.all := by cases c <;> decide +kernel

end NiaPy.Params
