import Verif.Fl

/-!
# Model of `niapy/util/factory.py` and of `Problem.evaluate`: C45, C48
-/

namespace NiaPy

/-! ## Factories -/

namespace Factory

/-- `_problem_options` (factory.py:40-93): key and class. -/
def problemTable : List (String × String) :=
  [("ackley", "Ackley"), ("alpine1", "Alpine1"), ("alpine2", "Alpine2"), ("bent_cigar", "BentCigar"),
   ("chung_reynolds", "ChungReynolds"), ("cosine_mixture", "CosineMixture"), ("csendes", "Csendes"),
   ("discus", "Discus"), ("dixon_price", "DixonPrice"), ("elliptic", "Elliptic"), ("conditioned_elliptic", "Elliptic"),
   ("expanded_griewank_plus_rosenbrock", "ExpandedGriewankPlusRosenbrock"), ("expanded_schaffer", "ExpandedSchaffer"),
   ("griewank", "Griewank"), ("happy_cat", "HappyCat"), ("hgbat", "HGBat"), ("katsuura", "Katsuura"), ("levy", "Levy"),
   ("michalewicz", "Michalewicz"), ("modified_schwefel", "ModifiedSchwefel"), ("perm", "Perm"), ("pinter", "Pinter"),
   ("powell", "Powell"), ("qing", "Qing"), ("quintic", "Quintic"), ("rastrigin", "Rastrigin"), ("ridge", "Ridge"),
   ("rosenbrock", "Rosenbrock"), ("salomon", "Salomon"), ("schaffer2", "SchafferN2"), ("schaffer4", "SchafferN4"),
   ("schumer_steiglitz", "SchumerSteiglitz"), ("schwefel", "Schwefel"), ("schwefel221", "Schwefel221"),
   ("schwefel222", "Schwefel222"), ("sphere", "Sphere"), ("sphere2", "Sphere2"), ("sphere3", "Sphere3"),
   ("step", "Step"), ("step2", "Step2"), ("step3", "Step3"), ("stepint", "Stepint"),
   ("styblinski_tang", "StyblinskiTang"), ("sum_squares", "SumSquares"), ("trid", "Trid"),
   ("weierstrass", "Weierstrass"), ("whitley", "Whitley"), ("zakharov", "Zakharov")]

/-- `_algorithm_options` (factory.py:96-180): key and class. -/
def algorithmTable : List (String × String) :=
  [("BatAlgorithm", "BatAlgorithm"), ("FireflyAlgorithm", "FireflyAlgorithm"),
   ("DifferentialEvolution", "DifferentialEvolution"),
   ("AgingNpDifferentialEvolution", "AgingNpDifferentialEvolution"),
   ("DynNpDifferentialEvolution", "DynNpDifferentialEvolution"),
   ("MultiStrategyDifferentialEvolution", "MultiStrategyDifferentialEvolution"),
   ("DynNpMultiStrategyDifferentialEvolution", "DynNpMultiStrategyDifferentialEvolution"),
   ("FlowerPollinationAlgorithm", "FlowerPollinationAlgorithm"), ("GreyWolfOptimizer", "GreyWolfOptimizer"),
   ("GeneticAlgorithm", "GeneticAlgorithm"), ("ArtificialBeeColonyAlgorithm", "ArtificialBeeColonyAlgorithm"),
   ("ParticleSwarmAlgorithm", "ParticleSwarmAlgorithm"), ("ParticleSwarmOptimization", "ParticleSwarmOptimization"),
   ("CenterParticleSwarmOptimization", "CenterParticleSwarmOptimization"),
   ("MutatedParticleSwarmOptimization", "MutatedParticleSwarmOptimization"),
   ("MutatedCenterParticleSwarmOptimization", "MutatedCenterParticleSwarmOptimization"),
   ("ComprehensiveLearningParticleSwarmOptimizer", "ComprehensiveLearningParticleSwarmOptimizer"),
   ("MutatedCenterUnifiedParticleSwarmOptimization", "MutatedCenterUnifiedParticleSwarmOptimization"),
   ("OppositionVelocityClampingParticleSwarmOptimization", "OppositionVelocityClampingParticleSwarmOptimization"),
   ("BareBonesFireworksAlgorithm", "BareBonesFireworksAlgorithm"), ("CamelAlgorithm", "CamelAlgorithm"),
   ("MonkeyKingEvolutionV1", "MonkeyKingEvolutionV1"), ("MonkeyKingEvolutionV2", "MonkeyKingEvolutionV2"),
   ("MonkeyKingEvolutionV3", "MonkeyKingEvolutionV3"), ("EvolutionStrategy1p1", "EvolutionStrategy1p1"),
   ("EvolutionStrategyMp1", "EvolutionStrategyMp1"), ("EvolutionStrategyMpL", "EvolutionStrategyMpL"),
   ("EvolutionStrategyML", "EvolutionStrategyML"), ("SineCosineAlgorithm", "SineCosineAlgorithm"),
   ("GlowwormSwarmOptimization", "GlowwormSwarmOptimization"),
   ("GlowwormSwarmOptimizationV1", "GlowwormSwarmOptimizationV1"),
   ("GlowwormSwarmOptimizationV2", "GlowwormSwarmOptimizationV2"),
   ("GlowwormSwarmOptimizationV3", "GlowwormSwarmOptimizationV3"), ("HarmonySearch", "HarmonySearch"),
   ("HarmonySearchV1", "HarmonySearchV1"), ("KrillHerd", "KrillHerd"), ("FireworksAlgorithm", "FireworksAlgorithm"),
   ("EnhancedFireworksAlgorithm", "EnhancedFireworksAlgorithm"),
   ("DynamicFireworksAlgorithm", "DynamicFireworksAlgorithm"),
   ("DynamicFireworksAlgorithmGauss", "DynamicFireworksAlgorithmGauss"),
   ("GravitationalSearchAlgorithm", "GravitationalSearchAlgorithm"), ("MothFlameOptimizer", "MothFlameOptimizer"),
   ("FishSchoolSearch", "FishSchoolSearch"), ("CuckooSearch", "CuckooSearch"),
   ("CoralReefsOptimization", "CoralReefsOptimization"),
   ("ForestOptimizationAlgorithm", "ForestOptimizationAlgorithm"),
   ("MonarchButterflyOptimization", "MonarchButterflyOptimization"),
   ("BacterialForagingOptimization", "BacterialForagingOptimization"), ("BeesAlgorithm", "BeesAlgorithm"),
   ("CatSwarmOptimization", "CatSwarmOptimization"), ("HarrisHawksOptimization", "HarrisHawksOptimization"),
   ("ClonalSelectionAlgorithm", "ClonalSelectionAlgorithm"),
   ("LionOptimizationAlgorithm", "LionOptimizationAlgorithm"), ("HybridBatAlgorithm", "HybridBatAlgorithm"),
   ("AdaptiveBatAlgorithm", "AdaptiveBatAlgorithm"), ("SelfAdaptiveBatAlgorithm", "SelfAdaptiveBatAlgorithm"),
   ("HybridSelfAdaptiveBatAlgorithm", "HybridSelfAdaptiveBatAlgorithm"),
   ("ParameterFreeBatAlgorithm", "ParameterFreeBatAlgorithm"),
   ("DifferentialEvolutionMTS", "DifferentialEvolutionMTS"),
   ("DifferentialEvolutionMTSv1", "DifferentialEvolutionMTSv1"),
   ("DynNpDifferentialEvolutionMTS", "DynNpDifferentialEvolutionMTS"),
   ("DynNpDifferentialEvolutionMTSv1", "DynNpDifferentialEvolutionMTSv1"),
   ("MultiStrategyDifferentialEvolutionMTS", "MultiStrategyDifferentialEvolutionMTS"),
   ("MultiStrategyDifferentialEvolutionMTSv1", "MultiStrategyDifferentialEvolutionMTSv1"),
   ("DynNpMultiStrategyDifferentialEvolutionMTS", "DynNpMultiStrategyDifferentialEvolutionMTS"),
   ("DynNpMultiStrategyDifferentialEvolutionMTSv1", "DynNpMultiStrategyDifferentialEvolutionMTSv1"),
   ("SelfAdaptiveDifferentialEvolution", "SelfAdaptiveDifferentialEvolution"),
   ("MultiStrategySelfAdaptiveDifferentialEvolution", "MultiStrategySelfAdaptiveDifferentialEvolution"),
   ("SuccessHistoryAdaptiveDifferentialEvolution", "SuccessHistoryAdaptiveDifferentialEvolution"),
   ("LpsrSuccessHistoryAdaptiveDifferentialEvolution", "LpsrSuccessHistoryAdaptiveDifferentialEvolution"),
   ("NelderMeadMethod", "NelderMeadMethod"), ("HillClimbAlgorithm", "HillClimbAlgorithm"),
   ("SimulatedAnnealing", "SimulatedAnnealing"), ("MultipleTrajectorySearch", "MultipleTrajectorySearch"),
   ("MultipleTrajectorySearchV1", "MultipleTrajectorySearchV1"),
   ("AnarchicSocietyOptimization", "AnarchicSocietyOptimization"), ("RandomSearch", "RandomSearch")]

/-- The problem classes exported by `niapy.problems` (problems/__init__.py), except the abstract class. -/
def exportedProblems : List String :=
  ["Rastrigin", "Rosenbrock", "Griewank", "ExpandedGriewankPlusRosenbrock", "Sphere", "Ackley", "Schwefel",
   "Schwefel221", "Schwefel222", "ModifiedSchwefel", "Whitley", "Alpine1", "Alpine2", "HappyCat", "Ridge",
   "ChungReynolds", "Csendes", "Pinter", "Qing", "Quintic", "Salomon", "SchumerSteiglitz", "Step", "Step2", "Step3",
   "Stepint", "SumSquares", "StyblinskiTang", "BentCigar", "Weierstrass", "HGBat", "Katsuura", "Elliptic", "Discus",
   "Michalewicz", "Levy", "Sphere2", "Sphere3", "Trid", "Perm", "Zakharov", "DixonPrice", "Powell", "CosineMixture",
   "ExpandedSchaffer", "SchafferN2", "SchafferN4"]

/-- The algorithm classes exported by `niapy.algorithms.basic`, `.modified` and `.other`. -/
def exportedAlgorithms : List String :=
  ["BatAlgorithm", "FireflyAlgorithm", "DifferentialEvolution", "AgingNpDifferentialEvolution",
   "DynNpDifferentialEvolution", "MultiStrategyDifferentialEvolution", "DynNpMultiStrategyDifferentialEvolution",
   "FlowerPollinationAlgorithm", "GreyWolfOptimizer", "CatSwarmOptimization", "GeneticAlgorithm",
   "ArtificialBeeColonyAlgorithm", "ParticleSwarmAlgorithm", "BareBonesFireworksAlgorithm", "CamelAlgorithm",
   "MonkeyKingEvolutionV1", "MonkeyKingEvolutionV2", "MonkeyKingEvolutionV3", "EvolutionStrategy1p1",
   "EvolutionStrategyMp1", "EvolutionStrategyMpL", "EvolutionStrategyML", "SineCosineAlgorithm",
   "GlowwormSwarmOptimization", "GlowwormSwarmOptimizationV1", "GlowwormSwarmOptimizationV2",
   "GlowwormSwarmOptimizationV3", "HarmonySearch", "HarmonySearchV1", "KrillHerd", "LionOptimizationAlgorithm",
   "FireworksAlgorithm", "EnhancedFireworksAlgorithm", "DynamicFireworksAlgorithm", "DynamicFireworksAlgorithmGauss",
   "GravitationalSearchAlgorithm", "MothFlameOptimizer", "MantisSearchAlgorithm", "MShOA", "FishSchoolSearch",
   "CuckooSearch", "CoralReefsOptimization", "ForestOptimizationAlgorithm", "MonarchButterflyOptimization",
   "BeesAlgorithm", "ParticleSwarmOptimization", "MutatedParticleSwarmOptimization",
   "MutatedCenterUnifiedParticleSwarmOptimization", "MutatedCenterParticleSwarmOptimization",
   "OppositionVelocityClampingParticleSwarmOptimization", "ComprehensiveLearningParticleSwarmOptimizer",
   "CenterParticleSwarmOptimization", "HarrisHawksOptimization", "BacterialForagingOptimization",
   "ClonalSelectionAlgorithm", "HybridBatAlgorithm", "DifferentialEvolutionMTS", "DifferentialEvolutionMTSv1",
   "DynNpDifferentialEvolutionMTS", "DynNpDifferentialEvolutionMTSv1", "MultiStrategyDifferentialEvolutionMTS",
   "MultiStrategyDifferentialEvolutionMTSv1", "DynNpMultiStrategyDifferentialEvolutionMTS",
   "DynNpMultiStrategyDifferentialEvolutionMTSv1", "SelfAdaptiveDifferentialEvolution",
   "MultiStrategySelfAdaptiveDifferentialEvolution", "AdaptiveBatAlgorithm", "SelfAdaptiveBatAlgorithm",
   "HybridSelfAdaptiveBatAlgorithm", "ParameterFreeBatAlgorithm", "SuccessHistoryAdaptiveDifferentialEvolution",
   "LpsrSuccessHistoryAdaptiveDifferentialEvolution", "ImprovedLpsrSuccessHistoryAdaptiveDifferentialEvolution",
   "NelderMeadMethod", "HillClimbAlgorithm", "SimulatedAnnealing", "MultipleTrajectorySearch",
   "MultipleTrajectorySearchV1", "AnarchicSocietyOptimization", "RandomSearch"]

/-- `dict.pop(key)` without a default. -/
def pop (table : List (String × String)) (key : String) : Except PyErr String :=
  match table.lookup key with
  | some c => .ok c
  | none => .error .keyError

/-- The class chosen by `get_problem` (factory.py:6-20). `lower` is `str.lower` of Python. Instantiating the class is not
modelled. -/
def getProblem (lower : String → String) (name : String) : Except PyErr String := pop problemTable (lower name)

/-- The class chosen by `get_algorithm` (factory.py:23-37). -/
def getAlgorithm (name : String) : Except PyErr String := pop algorithmTable name

theorem lookup_iff {l : List (String × String)} (h : (l.map (·.1)).Nodup) (k c : String) : l.lookup k = some c ↔ (k, c) ∈ l := by
  induction l with
  | nil => simp
  | cons a l ih =>
    obtain ⟨a1, a2⟩ := a
    simp only [List.map_cons, List.nodup_cons] at h
    by_cases hk : k = a1
    · subst hk
      simp only [List.lookup_cons, beq_self_eq_true, List.mem_cons, Prod.mk.injEq, true_and, Option.some.injEq]
      constructor
      · exact fun e => Or.inl e.symm
      · rintro (e | e)
        · exact e.symm
        · exact absurd (List.mem_map_of_mem (f := (·.1)) e) h.1
    · have : (k == a1) = false := by simpa using hk
      simp only [List.lookup_cons, this, List.mem_cons, Prod.mk.injEq, hk, false_and, false_or]
      exact ih h.2

theorem problemTable_nodup : (problemTable.map (·.1)).Nodup := by decide +kernel

theorem algorithmTable_nodup : (algorithmTable.map (·.1)).Nodup := by decide +kernel

theorem pop_iff {l : List (String × String)} (h : (l.map (·.1)).Nodup) (k : String) :
    (∀ c, pop l k = .ok c ↔ (k, c) ∈ l) ∧ (pop l k = .error .keyError ↔ ∀ c, (k, c) ∉ l) := by
  simp only [pop, ← lookup_iff h]
  cases l.lookup k with
  | none => simp
  | some c => simp

/-- C48: `get_problem` accepts exactly the names whose lower-case form is a key of the table; every other name raises
`KeyError`. -/
theorem C48_problem_lookup (lower : String → String) (name : String) :
    (∀ c, getProblem lower name = .ok c ↔ (lower name, c) ∈ problemTable) ∧
    (getProblem lower name = .error .keyError ↔ ∀ c, (lower name, c) ∉ problemTable) := pop_iff problemTable_nodup _

/-- C48: `get_algorithm` accepts exactly the keys of the table, and the class has the name asked for. -/
theorem C48_algorithm_lookup (name : String) :
    (∀ c, getAlgorithm name = .ok c ↔ c = name ∧ (name, name) ∈ algorithmTable) ∧
    (getAlgorithm name = .error .keyError ↔ (name, name) ∉ algorithmTable) := by
  have hd : ∀ e ∈ algorithmTable, e.1 = e.2 := by decide +kernel
  obtain ⟨h1, h2⟩ := pop_iff algorithmTable_nodup name
  refine ⟨fun c => (h1 c).trans ⟨fun h => ?_, fun h => by rw [h.1]; exact h.2⟩, h2.trans ⟨fun h => h name, fun h c hc => ?_⟩⟩
  · have := hd _ h
    simp only at this
    subst this
    exact ⟨rfl, h⟩
  · have := hd _ hc
    simp only at this
    subst this
    exact h hc

/-- Exported problem classes whose lower-case name is not a key. -/
def unreachableProblems : List String :=
  ["ExpandedGriewankPlusRosenbrock", "ModifiedSchwefel", "HappyCat", "ChungReynolds", "SchumerSteiglitz", "SumSquares",
   "StyblinskiTang", "BentCigar", "DixonPrice", "CosineMixture", "ExpandedSchaffer", "SchafferN2", "SchafferN4"]

/-- C48, as far as it holds for problems: an exported class is found under its name in any letter case, except the 13 classes
whose key contains an underscore or a different name. -/
theorem C48_problem_names_partial (lower : String → String) (c name : String) (hc : c ∈ exportedProblems) (hn : lower name = c.toLower) :
    (c ∉ unreachableProblems → getProblem lower name = .ok c) ∧ (c ∈ unreachableProblems → getProblem lower name = .error .keyError) := by
  have key : ∀ c ∈ exportedProblems,
      (if c ∈ unreachableProblems then problemTable.lookup c.toLower = none else problemTable.lookup c.toLower = some c) := by decide +kernel
  have := key c hc
  simp only [getProblem, pop, hn]
  constructor
  · intro h; rw [if_neg h] at this; rw [this]
  · intro h; rw [if_pos h] at this; rw [this]

/-- Every exported problem class is the class of some key. -/
theorem C48_problem_reachable : ∀ c ∈ exportedProblems, ∃ e ∈ problemTable, e.2 = c := by decide +kernel

/-- C48 is false of the problems: `get_problem("BentCigar")` raises `KeyError`. -/
theorem C48_problem_names_false : "BentCigar" ∈ exportedProblems ∧ getProblem String.toLower "BentCigar" = .error .keyError := by
  have h : "BentCigar" ∈ exportedProblems := by decide +kernel
  have h' : "BentCigar" ∈ unreachableProblems := by decide +kernel
  exact ⟨h, (C48_problem_names_partial String.toLower "BentCigar" "BentCigar" h rfl).2 h'⟩

example : getProblem String.toLower "RastRigin" = .ok "Rastrigin" := by
  have h : "Rastrigin" ∈ exportedProblems := by decide +kernel
  have h' : "Rastrigin" ∉ unreachableProblems := by decide +kernel
  have e : "RastRigin".toLower = "rastrigin" := by decide +kernel
  have e' : "Rastrigin".toLower = "rastrigin" := by decide +kernel
  have h'' : "RastRigin".toLower = "Rastrigin".toLower := by rw [e, e']
  exact (C48_problem_names_partial String.toLower "Rastrigin" "RastRigin" h h'').1 h'

/-- C48, as far as it holds for algorithms: an exported class is found under its name, except three. -/
theorem C48_algorithm_names_partial (c : String) (hc : c ∈ exportedAlgorithms) :
    getAlgorithm c = .ok c ↔
      c ∉ ["MantisSearchAlgorithm", "MShOA", "ImprovedLpsrSuccessHistoryAdaptiveDifferentialEvolution"] := by
  have key : ∀ c ∈ exportedAlgorithms, decide ((c, c) ∈ algorithmTable) = decide
      (c ∉ ["MantisSearchAlgorithm", "MShOA", "ImprovedLpsrSuccessHistoryAdaptiveDifferentialEvolution"]) := by decide +kernel
  rw [(C48_algorithm_lookup c).1 c]
  exact ⟨fun h => (decide_eq_decide.1 (key c hc)).1 h.2, fun h => ⟨rfl, (decide_eq_decide.1 (key c hc)).2 h⟩⟩

example : "BatAlgorithm" ∈ exportedAlgorithms := by decide +kernel

/-- C48 is false of the algorithms: `get_algorithm("MShOA")` raises `KeyError`. -/
theorem C48_algorithm_names_false : "MShOA" ∈ exportedAlgorithms ∧ getAlgorithm "MShOA" = .error .keyError :=
  ⟨by decide +kernel, ((C48_algorithm_lookup _).2).2 (by decide +kernel)⟩

end Factory

/-! ## `Problem.evaluate` -/

namespace Problem

/-- `Problem.evaluate` and `Problem.__call__` (problem.py:44-72) for a one-dimensional array `x`; `eval` is `_evaluate`. -/
def evaluate (dimension : ℕ) (eval : List Fl → Except PyErr Fl) (x : List Fl) : Except PyErr Fl :=
  if x.length ≠ dimension then .error .valueError else eval x

/-- C45: a solution of the wrong dimension is rejected with `ValueError` and the objective is not called (the result does not
depend on it); any other solution gets the value of the objective. -/
theorem C45_dimension (dimension : ℕ) (eval : List Fl → Except PyErr Fl) (x : List Fl) :
    (x.length ≠ dimension → evaluate dimension eval x = .error .valueError) ∧
    (x.length = dimension → evaluate dimension eval x = eval x) := by
  constructor <;> intro h <;> simp [evaluate, h]

example : evaluate 2 (fun _ => .ok (.fin 0)) [.fin 1] = .error .valueError := (C45_dimension 2 _ [.fin 1]).1 (by decide)

end Problem

end NiaPy
